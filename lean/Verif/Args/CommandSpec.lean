import Verif.Args.Command

/-!
# What a command line says

Independent of the table of options: what `neps run OPTIONS` means as a call of `neps.run`.
-/

namespace Verif.Args

open Verif.Space (Dict)
open Neps (PyFloat PyVal)

/-- The word on the command line for an argument of `neps.run`: `--`, and dashes for underscores. -/
def flagOf (name : String) : String :=
  String.ofList ('-' :: '-' :: name.toList.map fun c => if c = '_' then '-' else c)

/-- Arguments given as a text. -/
def textArgs : List String :=
  ["run_args", "run_pipeline", "pipeline_space", "root_directory", "development_stage_id", "task_id",
   "searcher"]

/-- Arguments given as an integer. -/
def countArgs : List String := ["max_evaluations_total", "max_evaluations_per_run"]

/-- Arguments given as a number. -/
def numberArgs : List String := ["max_cost_total", "loss_value_on_error", "cost_value_on_error"]

/-- Arguments that are switched on. -/
def switchArgs : List String :=
  ["overwrite_working_directory", "continue_until_max_evaluation_completed", "ignore_errors",
   "post_run_summary"]

/-- What an option with its arguments says about the argument `name` of `neps.run`; `none` if it says
nothing about it. -/
def sayArg (fs : String → Option PyFloat) (name : String) (tok : String × List String) : Option Py :=
  if tok = ("--no-post-run-summary", []) ∧ name = "post_run_summary" then some (.bool false)
  else if tok.1 = flagOf name then
    match tok.2 with
    | [] => if name ∈ switchArgs then some (.bool true) else none
    | [x] =>
      if name ∈ textArgs then some (.str x)
      else if name ∈ countArgs then (Neps.Cli.pyInt x.toList).map .int
      else if name ∈ numberArgs then (fs x).map floatPy
      else none
    | _ => none
  else none

/-- What the command line says about the argument: the last option counts. -/
def asked (fs : String → Option PyFloat) (toks : List (String × List String)) (name : String) :
    Option Py :=
  toks.reverse.findSome? (sayArg fs name)

/-- The words after the last `--searcher-kwargs`. -/
def askedItems (toks : List (String × List String)) : List String :=
  (toks.reverse.findSome? fun tok => if tok.1 = "--searcher-kwargs" then some tok.2 else none).getD []

/-- The command line is well formed: every option is known and has arguments of the right kind, and the
summary is not both asked for and declined. -/
def WellFormed (fs : String → Option PyFloat) (toks : List (String × List String)) : Prop :=
  (∀ tok ∈ toks, (∃ name v, sayArg fs name tok = some v) ∨
    (tok.1 = "--searcher-kwargs" ∧ tok.2 ≠ [])) ∧
  ¬ (("--post-run-summary", []) ∈ toks ∧ ("--no-post-run-summary", []) ∈ toks)

/-- The function that `path:name` stands for: the object of that name in the file, where `.py` may be
left out. -/
def Loads (env : Env) (text : String) (o : Py) : Prop :=
  ∃ path name : List Char, text.toList = path ++ ':' :: name ∧ ':' ∉ path ∧ ':' ∉ name ∧
    (env.importObject (String.ofList path) (String.ofList name) = some o ∨
      (env.importObject (String.ofList path) (String.ofList name) = none ∧
        (String.ofList path).endsWith ".py" = false ∧
        env.importObject (String.ofList path ++ ".py") (String.ofList name) = some o))

/-- `f` is what the command line says about the function: nothing, or the object it names. -/
def SaysPipeline (env : Env) (fs : String → Option PyFloat) (toks : List (String × List String))
    (f : Option Py) : Prop :=
  match asked fs toks "run_pipeline" with
  | some (.str text) => ∃ o, f = some o ∧ Loads env text o
  | _ => f = none

/-- The keyword arguments of the call of `neps.run` that the command line describes, `f` being the
function and `kw` the arguments for the searcher. -/
def described (fs : String → Option PyFloat) (toks : List (String × List String)) (f : Option Py)
    (kw : Dict Py) : Dict Py :=
  (signature.keys.filterMap fun name =>
    (if name = "run_pipeline" then f else asked fs toks name).map fun v => (name, v)) ++ kw

/-- The same Python value, for the two types of values: what an item after `--searcher-kwargs` is read
as (see `C92`), and what `neps.run` gets. Infinite numbers and NaN are opaque objects in a call. -/
inductive SameValue : PyVal → Py → Prop
  | none : SameValue .none .null
  | bool (b) : SameValue (.bool b) (.bool b)
  | int (n) : SameValue (.int n) (.int n)
  | num (q) : SameValue (.float (.num q)) (.float q)
  | nan : SameValue (.float .nan) (.obj (.other "nan"))
  | pinf : SameValue (.float .pinf) (.obj (.other "inf"))
  | ninf : SameValue (.float .ninf) (.obj (.other "-inf"))
  | str (s) : SameValue (.str s) (.str s)

end Verif.Args
