import Verif.Args.RunYaml

/-!
# Model of `Settings` and of the arguments of `neps.run`

`neps/api.py:28-61,128-144` and `neps/utils/run_args.py:449-607`.
-/

namespace Verif.Args

open Verif.Space (Dict)

/-- An argument as seen inside `neps.run`: a value given by the caller, or the `Default` object of
the signature (neps/utils/run_args.py:610-627). -/
inductive Arg where
  | given (v : Py)
  | dflt (v : Py)

/-- The value, without the `Default` wrapper. -/
def Arg.value : Arg → Py
  | .given v => v
  | .dflt v => v

/-- The named parameters of `neps.run` with their defaults (neps/api.py:28-60). -/
def signature : Dict Py :=
  [("run_pipeline", .null), ("root_directory", .null), ("pipeline_space", .null),
   ("run_args", .null), ("overwrite_working_directory", .bool false),
   ("post_run_summary", .bool true), ("development_stage_id", .null), ("task_id", .null),
   ("max_evaluations_total", .null), ("max_evaluations_per_run", .null),
   ("continue_until_max_evaluation_completed", .bool false), ("max_cost_total", .null),
   ("ignore_errors", .bool false), ("loss_value_on_error", .null),
   ("cost_value_on_error", .null), ("pre_load_hooks", .null), ("searcher", .str "default")]

/-- The keyword arguments of a call that are not named in the signature, `**searcher_kwargs`
(neps/api.py:60). -/
def extraKwargs (call : Dict Py) : Dict Py := call.filter fun p => decide (p.1 ∉ signature.keys)

/-- One named parameter inside `neps.run` after the deprecated `budget` has replaced
`max_cost_total` (neps/api.py:134-142). -/
def localArg (call : Dict Py) (name : String) (default : Py) : Arg :=
  match (if name = "max_cost_total" then Dict.get? call "budget" else none) with
  | some v => .given v
  | none =>
    match Dict.get? call name with
    | some v => .given v
    | none => .dflt default

/-- `locals()` in `neps.run` called with the keyword arguments `call` (neps/api.py:28-61,128-144);
`working_directory` raises. -/
def runLocals (call : Dict Py) : Option (Dict Arg) :=
  if "working_directory" ∈ (extraKwargs call).keys then none
  else some (signature.map (fun p => (p.1, localArg call p.1 p.2)) ++
    [("searcher_kwargs", .given (.dict ((extraKwargs call).erase "budget")))])

/-- `{**a, **b}`; other values than dictionaries raise. -/
def mergeDicts : Py → Py → Option Py
  | .dict a, .dict b => some (.dict (Dict.update a b))
  | _, _ => none

/-- One step of the loop in `Settings.merge` (neps/utils/run_args.py:558-569). -/
def mergeStep (yaml : Dict Py) (merged : Dict Py) (key : String) (value : Arg) : Option (Dict Py) :=
  if key = "searcher_kwargs" then
    match value with
    | .given v =>
      (mergeDicts ((yaml.get? "searcher_kwargs").getD (.dict [])) v).map fun m => merged.set key m
    | .dflt _ => none
  else
    match value with
    | .given v => some (merged.set key v)
    | .dflt v => if key ∈ yaml.keys then some merged else some (merged.set key v)

/-- `Settings.merge` (neps/utils/run_args.py:552-570). -/
def merge (func : Dict Arg) (yaml : Dict Py) : Option (Dict Py) :=
  func.foldlM (fun merged p => mergeStep yaml merged p.1 p.2) yaml

/-- The settings without a YAML file (neps/utils/run_args.py:540-545). -/
def unwrap (func : Dict Arg) : Dict Py :=
  func.map fun p => (p.1, p.2.value)

/-- The attributes of `Settings` (neps/utils/run_args.py:518-534). -/
def attributes : List String :=
  ["run_pipeline", "root_directory", "pipeline_space", "overwrite_working_directory",
   "post_run_summary", "development_stage_id", "task_id", "max_evaluations_total",
   "max_evaluations_per_run", "continue_until_max_evaluation_completed", "max_cost_total",
   "ignore_errors", "loss_value_on_error", "cost_value_on_error", "pre_load_hooks", "searcher",
   "searcher_kwargs"]

/-- `Settings.assign` (neps/utils/run_args.py:572-580), starting from attributes that are `UNSET`
(`none`).  Simplification: `hasattr` also knows the methods of the class; no argument has such a
name. -/
def assign (d : Dict Py) : Option (Dict (Option Py)) :=
  d.foldlM (fun (acc : Dict (Option Py)) p =>
    if p.1 ∈ attributes then some (acc.set p.1 (some p.2)) else none)
    (attributes.map fun a => (a, none))

/-- `isinstance(v, BaseOptimizer)` -/
def Py.isOptimizer : Py → Bool
  | .obj (.optInst _) => true
  | _ => false

/-- `check_essential_arguments` (neps/utils/run_args.py:449-488). -/
def essentialOk (runPipeline rootDirectory pipelineSpace maxCost maxEvals searcher : Py) : Bool :=
  if !runPipeline.truthy then false
  else if !rootDirectory.truthy then false
  else if !pipelineSpace.truthy && !searcher.isOptimizer then false
  else if !maxEvals.truthy && !maxCost.truthy then false
  else true

/-- `Settings.check` (neps/utils/run_args.py:590-607): every attribute assigned, the essential ones
given. -/
def check (s : Dict (Option Py)) : Option (Dict Py) := do
  let r ← s.mapM fun p => p.2.map fun v => (p.1, v)
  let a := fun k => ((Dict.get? r k).getD .null)
  if essentialOk (a "run_pipeline") (a "root_directory") (a "pipeline_space") (a "max_cost_total")
    (a "max_evaluations_total") (a "searcher") then some r else none

/-- The first part of `Settings.__init__` (neps/utils/run_args.py:536-545): the arguments merged
with those of the YAML file, if there is one. -/
def mergedOf (env : Env) (func : Dict Arg) : (runArgs : Py) → Option (Dict Py)
  | .null => some (unwrap func)
  | .str path | .obj (.path path) => do
      let doc ← env.yamlFile path
      let y ← runArgsOf env doc
      merge func y
  | _ => none

/-- `Settings.__init__` (neps/utils/run_args.py:509-550). -/
def settingsOf (env : Env) (func : Dict Arg) (runArgs : Py) : Option (Dict Py) := do
  let d ← mergedOf env func runArgs
  let s ← assign (d.erase "run_args")
  check s

/-- The settings used by `neps.run` called with the keyword arguments `call` (neps/api.py:128-144);
`none` if the call raises before that. -/
def runSettings (env : Env) (call : Dict Py) : Option (Dict Py) := do
  let func ← runLocals call
  settingsOf env func ((call.get? "run_args").getD .null)

end Verif.Args
