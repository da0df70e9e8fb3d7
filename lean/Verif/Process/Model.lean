import Mathlib.Data.List.Basic

/-!
# Model of the global variables of a process

`neps/runtime.py`: `_CURRENTLY_RUNNING_TRIAL_IN_PROCESS`, `_WORKER_NEPS_STATE` and
`_TRIAL_END_CALLBACKS`, through which `get_in_progress_trial`, `get_workers_neps_state` and with them
`load_checkpoint`, `save_checkpoint`, `get_initial_directory` and the TensorBoard logger find the run
and the trial they are called from.

A process runs any code of the user, which may call `neps.run` any number of times, also from within
an objective.  `S` are the states of the runs, `T` the trials.

Simplifications: which trials a worker evaluates is given with the call of `neps.run`, as it depends
on the optimizer and the other workers; all other errors of a run (such as locks that are not
available) are left out, and so are callbacks that raise (see `C47`).
-/

namespace Neps.Proc

/-- How code ends: it returns, raises an `Exception`, or is interrupted (`KeyboardInterrupt`,
`SystemExit`), which `except Exception` does not catch. -/
inductive End
  | returned
  | raised
  | interrupted
deriving DecidableEq, Repr

mutual

/-- Code of the user. -/
inductive Code (S T : Type)
  | done
  /-- calls `get_in_progress_trial` and `get_workers_neps_state` -/
  | look (rest : Code S T)
  /-- calls `register_notify_trial_end` -/
  | register (key : String) (rest : Code S T)
  | raise
  | interrupt
  /-- `try: body` with `except Exception: pass` -/
  | attempt (body rest : Code S T)
  /-- calls `neps.run`, where the worker evaluates `evals` unless it ends early -/
  | run (state : S) (ignoreErrors : Bool) (evals : Evals S T) (rest : Code S T)

/-- Evaluations of a worker: the trial, what the objective does, and whether what it returns is a
valid result. -/
inductive Evals (S T : Type)
  | nil
  | cons (trial : T) (objective : Code S T) (valid : Bool) (rest : Evals S T)

end

/-- The global variables, `neps/runtime.py:58-59,92`. -/
structure Globals (S T : Type) where
  /-- `_WORKER_NEPS_STATE` -/
  worker : Option S := none
  /-- `_CURRENTLY_RUNNING_TRIAL_IN_PROCESS` -/
  trial : Option T := none
  /-- the keys of `_TRIAL_END_CALLBACKS` -/
  callbacks : List String := []

/-- What happens. -/
inductive Event (S T : Type)
  /-- the two functions are called from `place`, which is the evaluation of a trial in a run or no
  evaluation; the results are `none` if they raise `RuntimeError` -/
  | looked (place : Option (S × T)) (trial : Option T) (state : Option S)
  | registered (key : String)
  /-- the trial is stored as being evaluated by this worker -/
  | claimed (state : S) (trial : T)
  /-- the objective is called -/
  | started (state : S) (trial : T)
  /-- the callback `key` is called with the trial -/
  | notified (key : String) (trial : T)
  /-- the result is stored -/
  | reported (state : S) (trial : T)
deriving DecidableEq, Repr

/-- `_TRIAL_END_CALLBACKS[key] = callback`, `neps/runtime.py:95-97`. -/
def addKey (keys : List String) (key : String) : List String :=
  if key ∈ keys then keys else keys ++ [key]

variable {S T : Type}

mutual

/-- Running code: the events, the variables afterwards and how it ends.  `look` is
`neps/runtime.py:63-89`, `register` lines 95-97, `run` is `DefaultWorker.run` from line 374 on. -/
def Code.exec (place : Option (S × T)) (g : Globals S T) :
    Code S T → List (Event S T) × Globals S T × End
  | .done => ([], g, .returned)
  | .look rest =>
    let r := rest.exec place g
    (.looked place g.trial g.worker :: r.1, r.2)
  | .register key rest =>
    let r := rest.exec place { g with callbacks := addKey g.callbacks key }
    (.registered key :: r.1, r.2)
  | .raise => ([], g, .raised)
  | .interrupt => ([], g, .interrupted)
  | .attempt body rest =>
    let r := body.exec place g
    if r.2.2 = .interrupted then r
    else
      let r' := rest.exec place r.2.1
      (r.1 ++ r'.1, r'.2)
  | .run s ignoreErrors evals rest =>
    let r := evals.exec s ignoreErrors { g with worker := some s }
    if r.2.2 = .returned then
      let r' := rest.exec place r.2.1
      (r.1 ++ r'.1, r'.2)
    else r

/-- The loop of the worker, `neps/runtime.py:382-486`, with `_set_global_trial` (lines 100-116) around
the evaluation and the check for errors of this worker (lines 207-236): the trial is stored as being
evaluated first; an exception of the objective is caught in `_eval_trial`
(`neps/state/_eval.py:85-134`), one because of an invalid result or an interrupt is not. -/
def Evals.exec (s : S) (ignoreErrors : Bool) (g : Globals S T) :
    Evals S T → List (Event S T) × Globals S T × End
  | .nil => ([], g, .returned)
  | .cons t objective valid rest =>
    if g.trial.isSome then ([.claimed s t], g, .raised)
    else
      let r := objective.exec (some (s, t)) { g with trial := some t }
      let before := .claimed s t :: .started s t :: r.1
      if r.2.2 = .interrupted then (before, r.2.1, .interrupted)
      else if r.2.2 = .returned ∧ valid = false then (before, r.2.1, .raised)
      else
        let g' := { r.2.1 with trial := none }
        let events := before ++ r.2.1.callbacks.map (fun k => .notified k t) ++ [.reported s t]
        if r.2.2 = .raised ∧ ignoreErrors = false then (events, g', .raised)
        else
          let r' := rest.exec s ignoreErrors g'
          (events ++ r'.1, r'.2)

end

/-- Several pieces of code one after the other in one process, such as the cells of a notebook: the
next one is run however the one before ended. -/
def session (g : Globals S T) : List (Code S T) → List (Event S T) × Globals S T
  | [] => ([], g)
  | c :: cs =>
    let r := c.exec none g
    let r' := session r.2.1 cs
    (r.1 ++ r'.1, r'.2)

end Neps.Proc
