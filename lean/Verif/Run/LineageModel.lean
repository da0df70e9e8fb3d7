import Verif.Run.Model

/-!
# Directories of trials

Model of `get_initial_directory` (`neps/utils/common.py:143-181`) and of the arguments with which the
objective is called (`neps/state/_eval.py:85-98, 136-164`).
-/

namespace Neps.Run

/-- Ways in which `get_initial_directory` ends without a path; `noFuel` means that the loop did not
end within the given number of rounds. -/
inductive DirErr
  | notFound | noTrial | noFuel
deriving DecidableEq, Repr

/-- `Path(pipeline_directory).name.split("_", maxsplit=1)[-1]`, `neps/utils/common.py:161`, applied to
the name. -/
def afterUnderscore (name : List Char) : List Char :=
  match name.dropWhile (· ≠ '_') with
  | [] => name
  | _ :: rest => rest

/-- The `while` loop, `neps/utils/common.py:169-171`. `lookup` is `get_trial_by_id` (`none`: it
raises). -/
def walkBack (lookup : String → Option Trial) : Nat → Trial → Except DirErr Trial
  | 0, _ => .error .noFuel
  | n + 1, t =>
    match t.metadata.previousTrialId with
    | none => .ok t
    | some p =>
      match lookup p with
      | none => .error .notFound
      | some t' => walkBack lookup n t'

/-- `_INTIAL_DIRECTORY_CACHE`, `neps/utils/common.py:143`. It lives as long as the process. -/
abbrev DirCache := List (String × String)

/-- `get_initial_directory` from line 166 on, for the trial it starts from: the result and the
cache afterwards. -/
def initialDirOf (lookup : String → Option Trial) (fuel : Nat) (cache : DirCache) (t : Trial) :
    Except DirErr String × DirCache :=
  match Dict.get cache t.metadata.id with
  | some p => (.ok p, cache)
  | none =>
    match walkBack lookup fuel t with
    | .error e => (.error e, cache)
    | .ok r => (.ok r.metadata.location, Dict.set cache r.metadata.id r.metadata.location)

/-- The argument of a call: a directory, or nothing (then the trial that the worker in this process
is evaluating is meant). -/
inductive DirArg
  | dir (name : String)
  | inProgress (w : Nat)
deriving DecidableEq, Repr

/-- The trial a call starts from, `neps/utils/common.py:158-164`; `get_in_progress_trial` is the trial
set at `neps/runtime.py:447`. -/
def startOf (W : World) (lookup : String → Option Trial) : DirArg → Except DirErr Trial
  | .dir name =>
    match lookup (String.ofList (afterUnderscore name.toList)) with
    | some t => .ok t
    | none => .error .notFound
  | .inProgress w =>
    match (W.worker w).pc with
    | .eval _ h => .ok h.cur
    | _ => .error .noTrial

/-- `get_trial_by_id(id)`, `neps/state/neps_state.py:64-66`. -/
def World.lookup (W : World) (id : String) : Option Trial :=
  match Store.load (W.disk id) with
  | .ok h => some h.cur
  | .error _ => none

/-- `get_initial_directory`, `neps/utils/common.py:149-181`. -/
def getInitialDirectory (W : World) (fuel : Nat) (cache : DirCache) (a : DirArg) :
    Except DirErr String × DirCache :=
  match startOf W W.lookup a with
  | .error e => (.error e, cache)
  | .ok t => initialDirOf W.lookup fuel cache t

/-- A process that works on one run: workers take steps, and now and then `get_initial_directory` is
called in the process. The result is the world and the cache afterwards. -/
def session (fs : String → Option PyFloat) (st : Nat → Settings) (fuel : Nat) :
    World → DirCache → List (List Act × DirArg) → World × DirCache
  | W, cache, [] => (W, cache)
  | W, cache, (as, a) :: calls =>
    let W' := run fs st W as
    session fs st fuel W' (getInitialDirectory W' fuel cache a).2 calls

/-! ## The arguments of the objective -/

/-- A path or the value of a hyperparameter. -/
inductive ArgVal
  | path (p : String)
  | noPath
  | value (v : PyVal)
deriving DecidableEq, Repr

/-- `evaluate_trial`, `neps/state/_eval.py:142-158`: the extra arguments, for an objective whose
parameters are called `sig`. -/
def injected (sig : List String) (t : Trial) : List (String × ArgVal) :=
  [("pipeline_directory", ArgVal.path t.metadata.location),
   ("previous_pipeline_directory",
     match t.metadata.previousTrialLocation with
     | some l => .path l
     | none => .noPath)].filter (fun p => p.1 ∈ sig)

/-- `fn(**kwargs, **trial.config)`, `neps/state/_eval.py:94`: the keyword arguments the objective
receives. `none`: Python raises `TypeError` because an argument is given twice (which is then treated
like an exception of the objective). -/
def callArgs (sig : List String) (t : Trial) : Option (List (String × ArgVal)) :=
  let kw := injected sig t
  if t.config.any (fun p => kw.any (fun q => q.1 = p.1)) then none
  else some (kw ++ t.config.map (fun p => (p.1, ArgVal.value p.2)))

end Neps.Run
