import Verif.Args.Yaml

/-!
# Model of the run arguments read from a YAML file

`neps/utils/run_args.py:44-446`: from the nested document to a dictionary of typed settings.
-/

namespace Verif.Args

open Verif.Space (Dict)

/-- What the code reads from outside: files and Python modules. -/
structure Env where
  /-- the document in a YAML file, `none` if there is no such file or it is not YAML -/
  yamlFile : String → Option Py
  /-- `import_object` (neps/utils/run_args.py:332-355): the object of that name in the module at
  the path, `none` if the file or the object does not exist -/
  importObject : (path name : String) → Option Py
  /-- `pipeline_space_from_yaml` (neps/search_spaces/search_space.py:98-168) of a dictionary,
  `none` if it raises; modelled in `Verif/Args/SpaceYaml.lean` -/
  spaceOf : Dict Py → Option (Dict Verif.Space.Hp)

/-- The allowed simple arguments (neps/utils/run_args.py:72-85). -/
def expectedParameters : List String :=
  ["root_directory", "max_evaluations_total", "max_cost_total", "overwrite_working_directory",
   "post_run_summary", "development_stage_id", "task_id", "max_evaluations_per_run",
   "continue_until_max_evaluation_completed", "loss_value_on_error", "cost_value_on_error",
   "ignore_errors"]

/-- `load_and_return_object` (neps/utils/run_args.py:311-373): tries the path, then the path with
`.py` appended.  A path or name that is not a text raises. -/
def loadObject (env : Env) (path name : Py) : Option Py :=
  match path, name with
  | .str p, .str n =>
    match env.importObject p n with
    | some o => some o
    | none => if p.endsWith ".py" then none else env.importObject (p ++ ".py") n
  | _, _ => none

/-- `process_run_pipeline` (neps/utils/run_args.py:287-308).  The special value is not null. -/
def runPipelineOf (env : Env) : Py → Option Py
  | .dict d => do
      let p ← Dict.get? d "path"
      let n ← Dict.get? d "name"
      loadObject env p n
  | _ => none

/-- The file case of `pipeline_space_from_yaml` (neps/search_spaces/search_space.py:115-134): the
document must be a dictionary. -/
def spaceFile (env : Env) (path : String) : Option (Dict Verif.Space.Hp) :=
  match env.yamlFile path with
  | some (.dict d) => env.spaceOf d
  | _ => none

/-- `process_pipeline_space` (neps/utils/run_args.py:206-248): a dictionary whose keys are exactly
`path` and `name` is a reference to a Python object, any other dictionary is the space itself, a
text is the path of a YAML file. -/
def pipelineSpaceOf (env : Env) : Py → Option Py
  | .dict d =>
    match Dict.get? d "path", Dict.get? d "name" with
    | some p, some n =>
      if d.length = 2 then loadObject env p n else (env.spaceOf d).map fun s => .obj (.space s)
    | _, _ => (env.spaceOf d).map fun s => .obj (.space s)
  | .str path => (spaceFile env path).map fun s => .obj (.space s)
  | _ => none

/-- `d.pop(k)` without the value. -/
def _root_.Verif.Space.Dict.erase {β : Type*} (d : Dict β) (k : String) : Dict β :=
  d.filter fun p => p.1 ≠ k

/-- `process_searcher` (neps/utils/run_args.py:251-284): the keyword arguments, if any, and the
searcher. -/
def searcherOf (env : Env) : Py → Option (Option (Dict Py) × Py)
  | .dict d =>
    match Dict.get? d "path", Dict.get? d "name" with
    | some p, some n => (loadObject env p n).map fun o => (some ((Dict.erase d "path").erase "name"), o)
    | _, _ => some (none, .dict d)
  | .str s => some (none, .str s)
  | _ => none

/-- `load_hooks_from_config` (neps/utils/run_args.py:376-389). -/
def hooksOf (env : Env) : Py → Option Py
  | .dict d => (d.mapM fun p => loadObject env p.2 (.str p.1)).map .list
  | _ => none

/-- Set a key unless the special value is null
(`if special_configs.get(key) is not None`, neps/utils/run_args.py:201,225,265,298). -/
def special (sp : Dict Py) (key : String) (settings : Dict Py)
    (process : Py → Option (Dict Py)) : Option (Dict Py) :=
  match Dict.get? sp key with
  | none => some settings
  | some v => if v.isNull then some settings else process v

/-- `process_searcher` storing its results (neps/utils/run_args.py:274,284). -/
def storeSearcher (env : Env) (settings : Dict Py) (v : Py) : Option (Dict Py) :=
  match searcherOf env v with
  | none => none
  | some (some kw, o) => some ((settings.set "searcher_kwargs" (.dict kw)).set "searcher" o)
  | some (none, o) => some (settings.set "searcher" o)

/-- `handle_special_argument_cases` (neps/utils/run_args.py:181-203). -/
def handleSpecial (env : Env) (settings sp : Dict Py) : Option (Dict Py) := do
  let s1 ← special sp "run_pipeline" settings fun v =>
    (runPipelineOf env v).map fun o => settings.set "run_pipeline" o
  let s2 ← special sp "pipeline_space" s1 fun v =>
    (pipelineSpaceOf env v).map fun o => s1.set "pipeline_space" o
  let s3 ← special sp "searcher" s2 fun v => storeSearcher env s2 v
  special sp "pre_load_hooks" s3 fun v => (hooksOf env v).map fun o => s3.set "pre_load_hooks" o

namespace Py

/-- `callable(v)`; classes are callable. -/
def callable : Py → Bool
  | obj (.func _) | obj (.optClass _) | obj (.otherClass _) => true
  | _ => false

/-- `isinstance(v, int)`; booleans are integers. -/
def isInt : Py → Bool
  | bool _ | int _ => true
  | _ => false

/-- `isinstance(v, bool)` -/
def isBool : Py → Bool
  | bool _ => true
  | _ => false

/-- `isinstance(v, float)` -/
def isFloat : Py → Bool
  | float _ => true
  | _ => false

/-- `isinstance(v, str)` -/
def isStr : Py → Bool
  | str _ => true
  | _ => false

/-- `isinstance(v, dict)` -/
def isDict : Py → Bool
  | dict _ | obj (.space _) => true
  | _ => false

end Py

/-- One step of `check_run_args` (neps/utils/run_args.py:423-446): is the value of the setting of
the expected type?  An unknown name raises. -/
def typeOk (param : String) (v : Py) : Bool :=
  if param = "development_stage_id" ∨ param = "task_id" then true
  else if param = "pre_load_hooks" then
    match v with
    | .list l => l.all Py.callable
    | _ => false
  else if param = "searcher" then
    match v with
    | .str _ | .dict _ | .obj (.space _) | .obj (.optClass _) => true
    | _ => false
  else if param = "run_pipeline" then v.callable
  else if param = "root_directory" then v.isStr
  else if param = "pipeline_space" then v.isStr || v.isDict
  else if param = "overwrite_working_directory" ∨ param = "post_run_summary" ∨
      param = "continue_until_max_evaluation_completed" ∨ param = "ignore_errors" then v.isBool
  else if param = "max_evaluations_total" ∨ param = "max_evaluations_per_run" then v.isInt
  else if param = "max_cost_total" then v.isInt || v.isFloat
  else if param = "loss_value_on_error" ∨ param = "cost_value_on_error" then v.isFloat
  else if param = "searcher_kwargs" then v.isDict
  else false

/-- `get_run_args_from_yaml` (neps/utils/run_args.py:44-116) of the document in the file. -/
def runArgsOf (env : Env) : Py → Option (Dict Py)
  | .dict config =>
    let r := extractLeafKeys config
    if r.1.all fun p => decide (p.1 ∈ expectedParameters) then
      match handleSpecial env r.1 r.2 with
      | none => none
      | some settings => if settings.all fun p => typeOk p.1 p.2 then some settings else none
    else none
  | _ => none

end Verif.Args
