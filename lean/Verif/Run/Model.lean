import Verif.Run.Stop
import Verif.Store.Model
import Mathlib.Data.List.Sort

/-!
# Workers sharing a run directory

A transition system of any number of workers: `DefaultWorker.run` (`neps/runtime.py:368-488`), the
`NePSState` calls it makes (`neps/state/neps_state.py`) and the trial repository
(`neps/state/filebased.py:86-210`).

Granularity: every lock-protected operation, and every directory listing, is one step; the steps
of different workers interleave arbitrarily, and a worker can be killed before any of its steps
and inside the creation of a trial. Everything the code does not determine is an input of the
step (`Choice`): listing order, what the optimizer proposes, what the objective does, clocks.

Simplifications:
* a worker's cache of opened trials is not part of the state: `synced()` is modelled as reading
  the disk. `Verif.Run.CacheModel` has the caches, and `C135` shows that it makes no difference as
  long as no lock times out; the handle a worker
  holds between fetching a trial and putting it back is part of its program counter;
* the optimizer state and the error log are only changed inside `acquire()`; by theorem `C03` they
  are plain shared values changed in one step;
* a listing is a snapshot of the trial directories in arbitrary order, and returns the ids the
  trials were created with (theorem `C18`);
* `all()` opens every trial before the first one is synced (`filebased.py:201`); here each trial is
  opened and synced in one step (`C135` again: `Verif.Run.CacheModel` has separate steps);
* `sample_trial` is one step (`Verif.Seed.ReadModel` reads the trials in separate steps, and `C144_runs`
  shows that the executions are the same);
* results and exceptions are storable (see `C52` for the others), and lock acquisition does not
  time out (see `C135_lock_timeout_fails`);
* kills inside `put` of an existing trial are treated at the level of one resource (`C04`, `C51`).
-/

namespace Neps.Run

open Neps.Store (Disk Handle)

/-- What the optimizer proposes: `SampledConfig`, `neps/optimizers/base_optimizer.py:72-76`. -/
structure Sampled where
  id : String
  config : List (String × PyVal)
  previousId : Option String
deriving DecidableEq, Repr

/-- The undetermined inputs of a step. -/
structure Choice where
  order : List String := []
  ask : Option Sampled := none          -- `none`: `optimizer.ask` raises
  outcome : Outcome := .returned .none
  now : PyFloat := 0
  duration : PyFloat := 0
  wall : PyFloat := 0
deriving Repr

/-- How a worker ends other than by a stop criterion. -/
inductive RunErr
  | workerRaise                  -- `WorkerRaiseError`
  | failedToGetNext              -- `WorkerFailedToGetPendingTrialsError`, `runtime.py:406`
  | sweepFailed                  -- an exception of `get_all_trials`, `runtime.py:318`
  | unboundCounter               -- `UnboundLocalError` at `runtime.py:422, 430`
  | claimFailedTooOften          -- `runtime.py:440`
  | evaluation (e : PyErr)       -- escapes `evaluate_trial`, `runtime.py:448`
  | reportRejected               -- `VersionMismatchError` at `neps_state.py:167`
deriving DecidableEq, Repr

/-- Where a worker is in `run`. The handle `h` is the cached version and content of the trial. -/
inductive PC
  | top                                                        -- `runtime.py:382-277`
  | readErrors                                                 -- `runtime.py:281-303`
  | sweepList                                                  -- `runtime.py:318`, the listing
  | sweep (todo : List String) (seen : List Trial)             -- `runtime.py:318-366`
  | pendList                                                   -- `filebased.py:207`, the listing
  | pend (todo : List String) (found : List (String × PyFloat))-- `filebased.py:205-210`
  | fetch (id : String)                                        -- `neps_state.py:211`
  | sample                                                     -- `neps_state.py:68-144`
  | claim (id : String) (h : Handle Trial)                     -- `runtime.py:414-444`
  | eval (id : String) (h : Handle Trial)                      -- `runtime.py:447-475`
  | report (id : String) (h : Handle Trial) (t : Trial) (r : Report)  -- `neps_state.py:162-167`
  | budget (t : Trial) (r : Report)                            -- `neps_state.py:169-177`
  | logErr (t : Trial) (r : Report) (e : Exc)                  -- `neps_state.py:179-189`
  | stopped (h : Halt)
  | raised (e : RunErr)
deriving DecidableEq, Repr

/-- The local state of a worker, `neps/runtime.py:121-153` and the locals of `run`.
`nFailed = none` means that the local variable `n_failed_set_trial_state` is unbound. -/
structure Worker where
  alive : Bool := true
  pc : PC := .top
  err : Option Exc := none
  count : Nat := 0
  cost : PyFloat := 0
  evalTime : PyFloat := 0
  nFailed : Option Nat := none
deriving Repr

/-- What happened, for stating properties (not part of the program). -/
inductive Event
  | created (w : Nat) (id : String)
  | claimed (w : Nat) (id : String) (fetched : Trial)
  | claimLost (w : Nat) (id : String)
  | evaluated (w : Nat) (id : String) (o : Outcome)
  | reported (w : Nat) (id : String) (r : Report)
  | charged (w : Nat) (r : Report)
  | logged (w : Nat) (e : ErrEntry)
deriving Repr

/-- The shared directory and the workers. `ids` are the trial directories in order of creation,
`disk id` the files of one of them. The log is newest first. -/
structure World where
  ids : List String := []
  disk : String → Disk Trial := fun _ => Disk.empty
  budget : PyFloat := 0
  errs : List ErrEntry := []
  worker : Nat → Worker := fun _ => {}
  log : List Event := []

/-- The name under which worker `w` runs (`neps/runtime.py:41-43`; any function would do). -/
def workerName (w : Nat) : String := toString w

/-- Update one worker. -/
def World.setW (W : World) (w : Nat) (x : Worker) : World :=
  { W with worker := fun w' => if w' = w then x else W.worker w' }

/-- Update the files of one trial. -/
def World.setDisk (W : World) (id : String) (d : Disk Trial) : World :=
  { W with disk := fun id' => if id' = id then d else W.disk id' }

/-- Move worker `w` to `pc`. -/
def World.goto (W : World) (w : Nat) (pc : PC) : World :=
  W.setW w { W.worker w with pc := pc }

/-- Append to the log. -/
def World.emit (W : World) (e : Event) : World := { W with log := e :: W.log }

/-- A directory listing: any order. -/
def listing (W : World) (c : Choice) : List String :=
  if c.order.isPerm W.ids then c.order else W.ids

/-- `sorted(pending, key=time_sampled)`, `neps/state/filebased.py:210` (a stable sort: an element
stays in front of another one unless the other one is smaller). -/
def sortByTime (l : List (String × PyFloat)) : List (String × PyFloat) :=
  l.insertionSort (fun a b => (PyFloat.lt b.2 a.2) = false)

/-- The error log entry for a report, `neps/state/neps_state.py:181-187`. -/
def errEntry (w : Nat) (t : Trial) (r : Report) (e : Exc) : ErrEntry :=
  { trialId := t.id, workerId := workerName w, errType := e.cls, err := e.msg, tb := r.tb }

/-- The new value of `used_cost_budget`, `neps/state/neps_state.py:172-176` (`_launch_runtime`
always creates a budget, `neps/runtime.py:520-530`). -/
def charge (used : PyFloat) (cost : Option PyFloat) : PyFloat :=
  match cost with
  | some k => used + k
  | none => used

/-- The trial stored by `put_new` for a proposal, `neps/state/neps_state.py:128-136` and
`neps/state/filebased.py:178`. -/
def newTrial (w : Nat) (s : Sampled) (prevLoc : Option String) (now : PyFloat) : Trial :=
  Trial.new s.id s.config ("config_" ++ s.id) s.previousId prevLoc now (workerName w)

/-- All trial directories are readable and the predecessor exists: the part of `sample_trial` before
the new trial is stored, `neps/state/neps_state.py:92-126`. The result is the location of the
predecessor. -/
def prepareSample (W : World) (s : Sampled) : Option (Option String) :=
  if W.ids.all (fun id => match Store.load (W.disk id) with | .ok _ => true | .error _ => false) then
    match s.previousId with
    | none => some none
    | some p =>
      if p ∈ W.ids then
        match Store.load (W.disk p) with
        | .ok h => some (some h.cur.metadata.location)
        | .error _ => none
      else none
  else none

/-- One step of worker `w` (which must be alive). `fs` is `float` on strings, `st` its settings. -/
def stepW (fs : String → Option PyFloat) (st : Settings) (W : World) (w : Nat) (c : Choice) :
    World :=
  let x := W.worker w
  match x.pc with
  | .stopped _ | .raised _ => W
  | .top =>
    match localCheck st x.err x.count x.cost c.wall x.evalTime with
    | some h => if h.raises then W.goto w (.raised .workerRaise) else W.goto w (.stopped h)
    | none =>
      if st.readsErrors then W.goto w .readErrors
      else if st.hasGlobalLimit then W.goto w .sweepList
      else W.goto w .pendList
  | .readErrors =>
    match sharedErrCheck st W.errs with
    | some h => if h.raises then W.goto w (.raised .workerRaise) else W.goto w (.stopped h)
    | none => if st.hasGlobalLimit then W.goto w .sweepList else W.goto w .pendList
  | .sweepList => W.goto w (.sweep (listing W c) [])
  | .sweep [] seen =>
    match globalCheck st seen with
    | some h => W.goto w (.stopped h)
    | none => W.goto w .pendList
  | .sweep (id :: todo) seen =>
    match Store.load (W.disk id) with
    | .error _ => W.goto w (.raised .sweepFailed)
    | .ok h => W.goto w (.sweep todo (seen ++ [h.cur]))
  | .pendList => W.goto w (.pend (listing W c) [])
  | .pend (id :: todo) found =>
    match Store.load (W.disk id) with
    | .error _ => W.goto w (.raised .failedToGetNext)
    | .ok h =>
      if h.cur.state = .pending then
        W.goto w (.pend todo (found ++ [(id, h.cur.metadata.timeSampled)]))
      else W.goto w (.pend todo found)
  | .pend [] found =>
    match sortByTime found with
    | [] => W.goto w .sample
    | (id, _) :: _ => W.goto w (.fetch id)
  | .fetch id =>
    match Store.load (W.disk id) with
    | .error _ => W.goto w (.raised .failedToGetNext)
    | .ok h => W.goto w (.claim id h)
  | .sample =>
    match c.ask with
    | none => W.goto w (.raised .failedToGetNext)
    | some s =>
      match prepareSample W s with
      | none => W.goto w (.raised .failedToGetNext)
      | some loc =>
        if s.id ∈ W.ids then W.goto w (.raised .failedToGetNext)
        else
          match Store.new (newTrial w s loc c.now) (W.disk s.id) with
          | (.error _, _) => W.goto w (.raised .failedToGetNext)
          | (.ok h, d) =>
            ({ (W.setDisk s.id d) with ids := W.ids ++ [s.id] }.goto w (.claim s.id h)).emit
              (.created w s.id)
  | .claim id h =>
    match Store.put (h.cur.setEvaluating c.now (workerName w)) h (W.disk id) with
    | (.ok h', d) =>
      (((W.setDisk id d).setW w { x with pc := .eval id h', nFailed := some 0 })).emit
        (.claimed w id h.cur)
    | (.error _, _) =>
      match x.nFailed with
      | none => (W.goto w (.raised .unboundCounter)).emit (.claimLost w id)
      | some n =>
        if n + 1 ≥ 10 then
          (W.setW w { x with pc := .raised .claimFailedTooOften, nFailed := some (n + 1) }).emit
            (.claimLost w id)
        else (W.setW w { x with pc := .top, nFailed := some (n + 1) }).emit (.claimLost w id)
  | .eval id h =>
    match evalTrial fs h.cur st.dv c.outcome c.now c.duration with
    | .error e => (W.goto w (.raised (.evaluation e))).emit (.evaluated w id c.outcome)
    | .ok (t, r) =>
      (W.setW w { x with
        pc := .report id h t r
        evalTime := x.evalTime + c.duration
        count := x.count + 1
        cost := x.cost + r.cost.getD 0
        err := match r.err with | some e => some e | none => x.err }).emit
          (.evaluated w id c.outcome)
  | .report id h t r =>
    match Store.put { t with report := some r } h (W.disk id) with
    | (.error _, _) => W.goto w (.raised .reportRejected)
    | (.ok _, d) => ((W.setDisk id d).goto w (.budget t r)).emit (.reported w id r)
  | .budget t r =>
    let W := { W with budget := charge W.budget r.cost }
    match r.err with
    | none => (W.goto w .top).emit (.charged w r)
    | some e => (W.goto w (.logErr t r e)).emit (.charged w r)
  | .logErr t r e =>
    ({ W with errs := W.errs ++ [errEntry w t r e] }.goto w .top).emit
      (.logged w (errEntry w t r e))

/-- What the scheduler does next: let a worker take a step, kill a worker, or kill it inside the
creation of a trial, `torn = 0` after the directory was made and `torn = 1` after the version file
was written (`neps/state/protocols.py:199-201`). -/
inductive Act
  | step (w : Nat) (c : Choice)
  | kill (w : Nat)
  | killCreating (w : Nat) (c : Choice) (torn : Bool)
deriving Repr

/-- The worker an action concerns. -/
def Act.who : Act → Nat
  | .step w _ | .kill w | .killCreating w _ _ => w

/-- Kill worker `w`. -/
def World.killW (W : World) (w : Nat) : World := W.setW w { W.worker w with alive := false }

/-- Perform an action. -/
def act (fs : String → Option PyFloat) (st : Nat → Settings) (W : World) : Act → World
  | .step w c => if (W.worker w).alive then stepW fs (st w) W w c else W
  | .kill w => W.killW w
  | .killCreating w c torn =>
    if (W.worker w).alive then
      match (W.worker w).pc, c.ask with
      | .sample, some s =>
        match prepareSample W s with
        | none => W.killW w
        | some _ =>
          if s.id ∈ W.ids then W.killW w
          else
            let d := if torn then (Store.bump (W.disk s.id)).2 else W.disk s.id
            ({ (W.setDisk s.id d) with ids := W.ids ++ [s.id] }).killW w
      | _, _ => W.killW w
    else W

/-- Perform a list of actions. -/
def run (fs : String → Option PyFloat) (st : Nat → Settings) (W : World) (as : List Act) : World :=
  as.foldl (act fs st) W

end Neps.Run
