import Verif.Args.Settings
import Verif.Cli.Model

/-!
# Model of the command `neps run` and of how the other commands find a run

`neps/utils/cli.py:31-51,175-214,768-895`.

Simplifications, for the whole file: `argparse` is modelled from the point where the words of the
command line are grouped into options with their arguments; abbreviated option names are not modelled;
numbers that are not finite are objects.
-/

namespace Verif.Args

open Verif.Space (Dict)
open Neps (PyFloat PyVal)

/-- What an option does with its arguments (`type`, `action` and `nargs` of `add_argument`,
neps/utils/cli.py:772-893). -/
inductive OptKind
  | text | int | float | setTrue | setFalse | texts
deriving DecidableEq

/-- The options of `neps run`: the word on the command line, the attribute of the result, and the kind
(neps/utils/cli.py:772-893). -/
def runOptions : List (String × String × OptKind) :=
  [("--run-args", "run_args", .text), ("--run-pipeline", "run_pipeline", .text),
   ("--pipeline-space", "pipeline_space", .text), ("--root-directory", "root_directory", .text),
   ("--overwrite-working-directory", "overwrite_working_directory", .setTrue),
   ("--development-stage-id", "development_stage_id", .text), ("--task-id", "task_id", .text),
   ("--post-run-summary", "post_run_summary", .setTrue),
   ("--no-post-run-summary", "post_run_summary", .setFalse),
   ("--max-evaluations-total", "max_evaluations_total", .int),
   ("--max-evaluations-per-run", "max_evaluations_per_run", .int),
   ("--continue-until-max-evaluation-completed", "continue_until_max_evaluation_completed",
     .setTrue),
   ("--max-cost-total", "max_cost_total", .float), ("--ignore-errors", "ignore_errors", .setTrue),
   ("--loss-value-on-error", "loss_value_on_error", .float),
   ("--cost-value-on-error", "cost_value_on_error", .float), ("--searcher", "searcher", .text),
   ("--searcher-kwargs", "searcher_kwargs", .texts)]

/-- The defaults of the options, all but the last one wrapped in `Default`
(neps/utils/cli.py:772-893). -/
def cliDefaults : Dict Py :=
  [("run_args", .null), ("run_pipeline", .null), ("pipeline_space", .null),
   ("root_directory", .null), ("overwrite_working_directory", .bool false),
   ("development_stage_id", .null), ("task_id", .null), ("post_run_summary", .bool true),
   ("max_evaluations_total", .null), ("max_evaluations_per_run", .null),
   ("continue_until_max_evaluation_completed", .bool false), ("max_cost_total", .null),
   ("ignore_errors", .bool false), ("loss_value_on_error", .null), ("cost_value_on_error", .null),
   ("searcher", .str "default")]

/-- A number as a Python value. -/
def floatPy : PyFloat → Py
  | .num q => .float q
  | .nan => .obj (.other "nan")
  | .pinf => .obj (.other "inf")
  | .ninf => .obj (.other "-inf")

/-- The values of `convert_value` (neps/utils/cli.py:146-163) as Python values; it returns no lists
and no dictionaries. -/
def toPy : PyVal → Py
  | .none => .null
  | .bool b => .bool b
  | .int n => .int n
  | .float x => floatPy x
  | .str s => .str s
  | .list _ => .null
  | .dict _ => .null
  | .obj _ => .null

/-- The result of `parse_args` for `neps run` (neps/utils/cli.py:985): the options that were given, and
the words after `--searcher-kwargs`. -/
structure Namespace where
  args : Dict Py := []
  items : List String := []
  /-- the options of the group `summary_group` that were seen (neps/utils/cli.py:818-832) -/
  summary : List String := []

/-- One option with its arguments (neps/utils/cli.py:772-893); `none` is the error message of
`argparse`. `fs` is `float(s)`. -/
def parseOne (fs : String → Option PyFloat) (ns : Namespace) (tok : String × List String) :
    Option Namespace :=
  match runOptions.find? (fun o => o.1 = tok.1) with
  | none => none
  | some (flag, dest, kind) =>
    match kind, tok.2 with
    | .text, [x] => some { ns with args := ns.args.set dest (.str x) }
    | .int, [x] =>
      (Neps.Cli.pyInt x.toList).map fun n => { ns with args := ns.args.set dest (.int n) }
    | .float, [x] => (fs x).map fun q => { ns with args := ns.args.set dest (floatPy q) }
    | .setTrue, [] =>
      if dest = "post_run_summary" then
        if ns.summary.any (· ≠ flag) then none
        else some { ns with args := ns.args.set dest (.bool true), summary := flag :: ns.summary }
      else some { ns with args := ns.args.set dest (.bool true) }
    | .setFalse, [] =>
      if ns.summary.any (· ≠ flag) then none
      else some { ns with args := ns.args.set dest (.bool false), summary := flag :: ns.summary }
    | .texts, x :: xs => some { ns with items := x :: xs }
    | _, _ => none

/-- `parser.parse_args()` for `neps run` (neps/utils/cli.py:985). -/
def parseArgs (fs : String → Option PyFloat) (toks : List (String × List String)) :
    Option Namespace :=
  toks.foldlM (parseOne fs) {}

/-- `args.run_pipeline.split(":")` and `load_and_return_object` (neps/utils/cli.py:179-185); more or
less than two parts raise. -/
def cliPipeline (env : Env) : Option Py → Option Arg
  | some (.str s) =>
    match Neps.Ids.split ':' s.toList with
    | [path, name] =>
      (loadObject env (.str (String.ofList path)) (.str (String.ofList name))).map .given
    | _ => none
  | _ => some (.dflt .null)

/-- `options` before `**kwargs` (neps/utils/cli.py:192-210). -/
def cliOptions (ns : Namespace) (pipeline : Arg) : Dict Arg :=
  cliDefaults.map fun p =>
    (p.1, if p.1 = "run_pipeline" then pipeline else
      match ns.args.get? p.1 with
      | some v => .given v
      | none => .dflt p.2)

/-- The arguments of the call `neps.run(**options)` (neps/utils/cli.py:175-214). -/
def cliCall (env : Env) (fs : String → Option PyFloat) (ns : Namespace) : Option (Dict Arg) :=
  match cliPipeline env (ns.args.get? "run_pipeline"), Neps.Cli.parseKv fs ns.items [] with
  | some pipeline, .ok kw =>
    some (Dict.update (cliOptions ns pipeline) (kw.map fun p => (p.1, .given (toPy p.2))))
  | _, _ => none

/-- `locals()` in `neps.run` if some of its arguments are `Default` objects (neps/api.py:28-61,128-144). -/
def localsOf (call : Dict Arg) : Option (Dict Arg) :=
  let extra : Dict Arg := call.filter fun p => decide (p.1 ∉ signature.keys)
  if "working_directory" ∈ Dict.keys extra then none
  else some (signature.map (fun p => (p.1,
      ((if p.1 = "max_cost_total" then call.get? "budget" else none).or (call.get? p.1)).getD
        (.dflt p.2))) ++
    [("searcher_kwargs", .given (.dict ((Dict.erase extra "budget").map fun p => (p.1, p.2.value))))])

/-- The value of `run_args` that `Settings` sees: a `Default` object counts as none
(neps/utils/run_args.py:536). -/
def runArgsArg : Option Arg → Py
  | some (.given v) => v
  | _ => .null

/-- The settings of the run that `neps run` starts; `none` if it ends with an error before that
(neps/utils/cli.py:175-214,985-988). -/
def cliRun (env : Env) (fs : String → Option PyFloat) (toks : List (String × List String)) :
    Option (Dict Py) := do
  let ns ← parseArgs fs toks
  let call ← cliCall env fs ns
  let func ← localsOf call
  settingsOf env func (runArgsArg (call.get? "run_args"))

/-! ## Directories -/

/-- The directory of the run (neps/api.py:216-223). `str` is Python's `str`; a path is a text. -/
def runDirectory (str : Py → String) (s : Dict Py) : String :=
  let get := fun k => (Dict.get? s k).getD .null
  let d := str (get "root_directory")
  let d := if (get "task_id").isNull then d else d ++ "/task_" ++ str (get "task_id")
  if (get "development_stage_id").isNull then d
  else d ++ "/dev_" ++ str (get "development_stage_id")

/-- `get_root_directory` (neps/utils/cli.py:31-51): `option` is the argument of `--root-directory`;
`none` is an exception. -/
def getRootDirectory (env : Env) (option : Option String) : Option Py :=
  let fromFile : Option Py :=
    match env.yamlFile "run_config.yaml" with
    | some (.dict config) =>
      match Dict.get? config "root_directory" with
      | some v => if v.truthy then some v else none
      | none => none
    | _ => none
  match option with
  | some d => if d ≠ "" then some (.str d) else fromFile
  | none => fromFile

end Verif.Args
