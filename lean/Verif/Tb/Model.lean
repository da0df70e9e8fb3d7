import Verif.Trial.Model

/-!
# Logging to TensorBoard

Model of `tblogger` (`neps/plot/tensorboard_eval.py`) and of the callbacks at the end of a trial
(`neps/runtime.py:92-117`).

Simplifications, for the whole file: a directory is the text of its path; what a writer is given to
write ends up in the directory of the writer, in the order of the calls. Numbers are of some type `R`,
images (with their grid, see `GridModel.lean`) of some type `I`.
-/

namespace Neps.Tb

variable {R I : Type}

/-- Exceptions raised while logging. -/
inductive Err
  | noTrial | fileNotFound | valueError | assertion | zeroDivision | other
deriving DecidableEq, Repr

/-- What is written: a number, the hyperparameters with the loss, or an image. -/
inductive Payload (R I : Type)
  | scalar (v : R)
  | hparams (config : List (String × PyVal)) (loss : R)
  | image (i : I)
deriving DecidableEq

/-- One `add_scalar`, `add_hparams` or `add_image` of the writer of directory `dir`. -/
structure Event (R I : Type) where
  dir : String
  tag : String
  payload : Payload R I
  step : Int
deriving DecidableEq

/-- The class variables of `tblogger` (`neps/plot/tensorboard_eval.py:66-83`), whether its callback is
registered (`neps/runtime.py:92`), the directories in which there is a directory `tbevents`, what was
written for the trials, and the points of the incumbent graph with their directory. -/
structure TB (R I : Type) where
  configId : Option String := none
  config : Option (List (String × PyVal)) := none
  workDir : Option String := none
  optimizerDir : Option String := none
  prevDir : Option String := none
  disabled : Bool := false
  loss : Option R := none
  epoch : Option Int := none
  writeIncumbent : Bool := false
  writer : Option String := none
  summaryWriter : Option String := none
  registered : Bool := false
  tbDirs : List String := []
  events : List (Event R I) := []
  graph : List (String × Nat × R) := []
deriving DecidableEq

/-- The run the process works on: its root directory, and `get_initial_directory`
(`neps/utils/common.py:149-181`, modelled in `Run/LineageModel.lean`). -/
structure Env where
  root : String
  initialDir : String → Except Err String

/-- `str(path).rsplit("/", maxsplit=1)[-1]`, `neps/plot/tensorboard_eval.py:122-124, 135`. -/
def baseName (path : String) : String :=
  String.ofList (path.toList.reverse.takeWhile (· ≠ '/')).reverse

/-- `_initiate_internal_configurations`, `neps/plot/tensorboard_eval.py:85-107`, while `t` is being
evaluated. -/
def initiate (env : Env) (t : Trial) (s : TB R I) : TB R I :=
  { s with
    registered := true
    workDir := some t.metadata.location
    prevDir := t.metadata.previousTrialLocation
    configId := some t.metadata.id
    optimizerDir := some env.root
    config := some t.config }

/-- `_initialize_writers`, `neps/plot/tensorboard_eval.py:113-142`. -/
def initializeWriters (env : Env) (s : TB R I) : TB R I × Option Err :=
  match s.prevDir, s.workDir with
  | none, some w =>
    ({ s with configId := some (baseName w), writer := some w, tbDirs := w :: s.tbDirs }, none)
  | _, some w =>
    match env.initialDir w with
    | .error e => (s, some e)
    | .ok d =>
      let s := { s with configId := some (baseName d) }
      if d ∈ s.tbDirs then ({ s with writer := some d }, none) else (s, some .fileNotFound)
  | _, none => (s, none)

/-- `if not tblogger._is_initialized(): tblogger._initialize_writers()`,
`neps/plot/tensorboard_eval.py:110-112, 273-274, 323-324, 389-390`. -/
def ensureWriter (env : Env) (s : TB R I) : TB R I × Option Err :=
  match s.writer with
  | some _ => (s, none)
  | none => initializeWriters env s

/-- `str(tblogger.config_id) + "/" + tag`, `neps/plot/tensorboard_eval.py:279, 360`. -/
def fullTag (s : TB R I) (tag : String) : String := s.configId.getD "None" ++ "/" ++ tag

/-- `_write_scalar_config`, `neps/plot/tensorboard_eval.py:254-287`. -/
def writeScalar (env : Env) (tag : String) (v : R) (s : TB R I) : TB R I × Option Err :=
  match ensureWriter env s with
  | (s, some e) => (s, some e)
  | (s, none) =>
    match s.writer with
    | some d => ({ s with events := s.events ++ [⟨d, fullTag s tag, .scalar v, s.epoch.getD 0⟩] }, none)
    | none => (s, some .valueError)

/-- `_write_image_config`, `neps/plot/tensorboard_eval.py:289-368`; `counter` says every how many epochs
an image is written. -/
def writeImage (env : Env) (tag : String) (i : I) (counter : Int) (s : TB R I) :
    TB R I × Option Err :=
  match ensureWriter env s with
  | (s, some e) => (s, some e)
  | (s, none) =>
    match s.epoch with
    | none => (s, some .assertion)
    | some ep =>
      if 0 ≤ ep then
        if counter = 0 then (s, some .zeroDivision)
        else if ep % counter = 0 then
          match s.writer with
          | some d => ({ s with events := s.events ++ [⟨d, fullTag s tag, .image i, ep⟩] }, none)
          | none => (s, some .valueError)
        else (s, none)
      else (s, none)

/-- `_write_hparam_config` and `add_hparams`, `neps/plot/tensorboard_eval.py:45-63, 370-410`. -/
def writeHparams (env : Env) (s : TB R I) : TB R I × Option Err :=
  match ensureWriter env s with
  | (s, some e) => (s, some e)
  | (s, none) =>
    match s.writer, s.config, s.epoch, s.loss with
    | some d, some c, some ep, some l =>
      ({ s with events := s.events ++ [⟨d, "Summary/Loss", .hparams c l, ep⟩] }, none)
    | some _, _, _, _ => (s, some .assertion)
    | none, _, _, _ => (s, some .valueError)

/-- An entry of `extra_data`, made by `scalar_logging` or `image_logging`
(`neps/plot/tensorboard_eval.py:195-252`); entries with another mode are ignored. -/
inductive Extra (R I : Type)
  | scalar (v : R)
  | image (i : I) (counter : Int)
  | ignored
deriving DecidableEq

/-- Two statements one after the other: the second one is not reached if the first one raises. -/
def andThen (r : TB R I × Option Err) (f : TB R I → TB R I × Option Err) : TB R I × Option Err :=
  match r with
  | (s, some e) => (s, some e)
  | (s, none) => f s

/-- The body of the loop over `extra_data`, `neps/plot/tensorboard_eval.py:518-530`. -/
def writeOne (env : Env) (k : String) (x : Extra R I) (s : TB R I) : TB R I × Option Err :=
  match x with
  | .scalar v => writeScalar env k v s
  | .image i c => writeImage env k i c s
  | .ignored => (s, none)

/-- The loop over `extra_data`, `neps/plot/tensorboard_eval.py:516-530`. -/
def writeExtra (env : Env) : List (String × Extra R I) → TB R I → TB R I × Option Err
  | [], s => (s, none)
  | (k, x) :: xs, s => andThen (writeOne env k x s) (writeExtra env xs)

/-- The arguments of `log`, `neps/plot/tensorboard_eval.py:480-488`. -/
structure LogArgs (R I : Type) where
  loss : R
  epoch : Int
  scalar : Bool := true
  hparam : Bool := true
  incumbent : Bool := false
  extra : List (String × Extra R I) := []
deriving DecidableEq

/-- `log`, `neps/plot/tensorboard_eval.py:480-530`, called while `t` is being evaluated (`none`: while no
trial is). -/
def log (env : Env) (t : Option Trial) (a : LogArgs R I) (s : TB R I) : TB R I × Option Err :=
  if s.disabled then (s, none)
  else
    let s := { s with epoch := some a.epoch, loss := some a.loss, writeIncumbent := a.incumbent }
    match t with
    | none => (s, some .noTrial)
    | some t =>
      let s := initiate env t s
      andThen (if a.scalar then writeScalar env "Loss" a.loss s else (s, none)) fun s =>
      andThen (if a.hparam then writeHparams env s else (s, none)) fun s =>
      writeExtra env a.extra s

/-- `_tracking_incumbent_api`, `neps/plot/tensorboard_eval.py:412-444`; `summary` is
`get_summary_dict` at that time (`neps/status/status.py:22-90`, modelled in `Status/Model.lean`): the number
of evaluated trials and the best loss. -/
def trackIncumbent (summary : Except Err (Nat × R)) (s : TB R I) : TB R I × Option Err :=
  match s.optimizerDir with
  | none => (s, some .assertion)
  | some dir =>
    match summary with
    | .error e => (s, some e)
    | .ok (n, best) =>
      let d := match s.summaryWriter with
        | some d => d
        | none => dir
      ({ s with summaryWriter := some d, graph := s.graph ++ [(d, n, best)] }, none)

/-- `end_of_config`, `neps/plot/tensorboard_eval.py:144-154`. -/
def endOfConfig (summary : Except Err (Nat × R)) (s : TB R I) : TB R I × Option Err :=
  let s := { s with writer := none }
  if s.writeIncumbent then trackIncumbent summary s else (s, none)

/-- What an objective does while it is evaluated: it logs, or calls `disable` or `enable`
(`neps/plot/tensorboard_eval.py:446-477`); meanwhile another process may create a `tbevents` directory. -/
inductive Step (R I : Type)
  | log (a : LogArgs R I)
  | disable
  | enable
  | elsewhere (dir : String)

/-- One step of the objective. If it raises, the objective may or may not catch the exception and go
on. -/
def step (env : Env) (t : Trial) (s : TB R I) : Step R I → TB R I
  | .log a => (log env (some t) a s).1
  | .disable => { s with disabled := true }
  | .enable => { s with disabled := false }
  | .elsewhere d => { s with tbDirs := d :: s.tbDirs }

/-- An evaluation that ended, normally or with an exception of the objective (which is caught,
`neps/state/_eval.py:93-131`): the trial, the steps of the objective, and the summary of the run at the end
of the evaluation. -/
structure Episode (R I : Type) where
  trial : Trial
  steps : List (Step R I)
  summary : Except Err (Nat × R)

/-- The body of the `with` statement and the callbacks after it, `neps/runtime.py:100-117, 447-455`. -/
def episode (env : Env) (s : TB R I) (e : Episode R I) : TB R I × Option Err :=
  let s := e.steps.foldl (step env e.trial) s
  if s.registered then endOfConfig e.summary s else (s, none)

/-- The evaluations of one process, one after the other. An exception of a callback ends the worker. -/
def episodes (env : Env) : TB R I → List (Episode R I) → TB R I × Option Err
  | s, [] => (s, none)
  | s, e :: es =>
    match episode env s e with
    | (s, some err) => (s, some err)
    | (s, none) => episodes env s es

/-! ## Specification -/

/-- The directory of the first trial of the lineage of `t`: its own one if it continues no other. -/
def HomeIs (env : Env) (t : Trial) (d : String) : Prop :=
  match t.metadata.previousTrialLocation with
  | none => d = t.metadata.location
  | some _ => env.initialDir t.metadata.location = .ok d

/-- What the entries of `extra_data` should write, in directory `d`, with `curve` in front of the names,
at epoch `n`. -/
def wantedExtra (d curve : String) (n : Int) (xs : List (String × Extra R I)) : List (Event R I) :=
  xs.filterMap fun (k, x) =>
    match x with
    | .scalar v => some ⟨d, curve ++ "/" ++ k, .scalar v, n⟩
    | .image i counter => if 0 ≤ n ∧ n % counter = 0 then some ⟨d, curve ++ "/" ++ k, .image i, n⟩ else none
    | .ignored => none

/-- What one call of `log` should write. -/
def wanted (d curve : String) (t : Trial) (a : LogArgs R I) : List (Event R I) :=
  (if a.scalar then [⟨d, curve ++ "/Loss", .scalar a.loss, a.epoch⟩] else []) ++
  (if a.hparam then [⟨d, "Summary/Loss", .hparams t.config a.loss, a.epoch⟩] else []) ++
  wantedExtra d curve a.epoch a.extra

/-- The call writes something or at least opens a writer. -/
def Opens (a : LogArgs R I) : Prop :=
  a.scalar = true ∨ a.hparam = true ∨ ∃ k x, (k, x) ∈ a.extra ∧ x ≠ Extra.ignored

end Neps.Tb
