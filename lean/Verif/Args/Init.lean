import Verif.Args.Command

/-!
# Model of the command `neps init`

`neps/utils/cli.py:53-139,745-766`.

Simplifications, for the whole file: the YAML syntax is not modelled, so a template is the document
`yaml.safe_load` returns for the text that is written (numbers like `1e-5` are texts for it), and
comments are left out; that the file can be written is taken for granted.
-/

namespace Verif.Args

open Verif.Space (Dict)

/-- What is in a file: a YAML document, or something that is not YAML. -/
inductive Content where
  | doc (d : Py)
  | other (text : String)

/-- The files, by their paths. -/
abbrev Files := String → Option Content

/-- The first template (neps/utils/cli.py:63-87). -/
def basicTemplate : Py := .dict
  [("run_pipeline", .dict
      [("path", .str "path/to/your/run_pipeline.py"), ("name", .str "name_of_your_pipeline_function")]),
   ("pipeline_space", .dict
      [("float_parameter_name", .dict
          [("type", .str "float"), ("lower", .null), ("upper", .null), ("log", .bool false)]),
       ("int_parameter_name", .dict [("type", .str "int"), ("lower", .null), ("upper", .null)]),
       ("categorical_parameter_name", .dict
          [("choices", .list [.str "choice1", .str "choice2", .str "choice3"])]),
       ("constant_parameter_name", .int 17)]),
   ("root_directory", .str "set/path/for/root_directory"),
   ("max_evaluations_total", .null),
   ("overwrite_working_directory", .null)]

/-- The second template (neps/utils/cli.py:90-134). -/
def completeTemplate : Py := .dict
  [("run_pipeline", .dict
      [("path", .str "path/to/your/run_pipeline.py"), ("name", .str "example_pipeline")]),
   ("pipeline_space", .dict
      [("learning_rate", .dict
          [("lower", .str "1e-5"), ("upper", .str "1e-1"), ("log", .bool true)]),
       ("epochs", .dict [("lower", .int 5), ("upper", .int 20), ("is_fidelity", .bool true)]),
       ("optimizer", .dict [("choices", .list [.str "adam", .str "sgd", .str "adamw"])]),
       ("batch_size", .int 64)]),
   ("root_directory", .str "path/to/results"),
   ("max_evaluations_total", .int 20),
   ("max_cost_total", .null),
   ("overwrite_working_directory", .bool false),
   ("post_run_summary", .bool true),
   ("development_stage_id", .null),
   ("task_id", .null),
   ("max_evaluations_per_run", .null),
   ("continue_until_max_evaluation_completed", .bool true),
   ("loss_value_on_error", .null),
   ("cost_value_on_error", .null),
   ("ignore_errors", .null),
   ("searcher", .str "hyperband"),
   ("pre_load_hooks", .null)]

/-- What is written for a template; nothing for an unknown name, and an empty file is the document
`null` (neps/utils/cli.py:61-135). -/
def templateOf (name : String) : Py :=
  if name = "basic" then basicTemplate
  else if name = "complete" then completeTemplate
  else .null

/-- `args.x if args.x else default` for texts (neps/utils/cli.py:57,61). -/
def orText (o : Option String) (default : String) : String :=
  match o with
  | some s => if s = "" then default else s
  | none => default

/-- The arguments of `neps init` (neps/utils/cli.py:746-765). -/
structure InitArgs where
  configPath : Option String := none
  template : Option String := some "basic"
  stateMachine : Bool := false

/-- `init_config` (neps/utils/cli.py:53-139): the files afterwards and what is printed. -/
def initConfig (args : InitArgs) (files : Files) : Files × Option String :=
  let path := orText args.configPath "run_config.yaml"
  match files path with
  | none =>
    (fun q => if q = path then some (.doc (templateOf (orText args.template "basic"))) else files q,
      none)
  | some _ =>
    if args.stateMachine then (files, none)
    else (files, some ("Path " ++ path ++ " does already exist."))

/-- One option of `neps init` with its arguments (neps/utils/cli.py:745-766); `none` is the error
message of `argparse`. -/
def initOne (args : InitArgs) (tok : String × List String) : Option InitArgs :=
  match tok with
  | ("--config-path", [x]) => some { args with configPath := some x }
  | ("--template", [x]) =>
    if x ∈ ["basic", "complete"] then some { args with template := some x } else none
  | ("--state-machine", []) => some { args with stateMachine := true }
  | _ => none

/-- `neps init` with these options (neps/utils/cli.py:985-988). -/
def initCommand (toks : List (String × List String)) (files : Files) :
    Option (Files × Option String) :=
  (toks.foldlM initOne {}).map fun args => initConfig args files

/-- The outside world as the reader of run arguments sees it. -/
def Files.yaml (files : Files) (path : String) : Option Py :=
  match files path with
  | some (.doc d) => some d
  | _ => none

end Verif.Args
