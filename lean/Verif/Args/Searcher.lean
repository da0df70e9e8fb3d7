import Verif.Args.Settings

/-!
# Model of the choice of the searcher

`neps/api.py:146-214,258-426`, `neps/utils/common.py:184-239,265-335`,
`neps/optimizers/__init__.py` and `neps/optimizers/default_searchers`.
-/

namespace Verif.Args

open Verif.Space (Dict)
open Verif.Space

/-- The files in `neps/optimizers/default_searchers/*.yaml`, by name. -/
def defaultSearchers : Dict (Dict Py) :=
  [("asha",
    [("strategy", .str "asha"), ("eta", .int 3), ("early_stopping_rate", .int 0),
    ("initial_design_type", .str "max_budget"), ("use_priors", .bool false),
    ("random_interleave_prob", .float 0), ("sample_default_first", .bool false),
    ("sample_default_at_target", .bool false)]),
   ("asha_prior",
    [("strategy", .str "asha_prior"), ("eta", .int 3), ("early_stopping_rate", .int 0),
    ("initial_design_type", .str "max_budget"), ("prior_confidence", .str "medium"),
    ("random_interleave_prob", .float 0), ("sample_default_first", .bool false),
    ("sample_default_at_target", .bool false)]),
   ("bayesian_optimization",
    [("strategy", .str "bayesian_optimization"), ("initial_design_size", .null), ("use_cost",
    .bool false), ("use_priors", .bool false), ("sample_default_first", .bool false),
    ("device", .null)]),
   ("hyperband",
    [("strategy", .str "hyperband"), ("eta", .int 3), ("initial_design_type", .str
    "max_budget"), ("use_priors", .bool false), ("random_interleave_prob", .float 0),
    ("sample_default_first", .bool false), ("sample_default_at_target", .bool false)]),
   ("ifbo",
    [("strategy", .str "ifbo"), ("surrogate_model_args", .dict [("version", .str "0.0.1"),
    ("target_path", .null)]), ("step_size", .int 1), ("use_priors", .bool false),
    ("sample_default_first", .bool false), ("sample_default_at_target", .bool false),
    ("initial_design_size", .str "ndim"), ("n_acquisition_new_configs", .int 1000), ("device",
    .null)]),
   ("mobster",
    [("strategy", .str "mobster"), ("eta", .int 3), ("initial_design_type", .str
    "max_budget"), ("use_priors", .bool false), ("random_interleave_prob", .float 0),
    ("sample_default_first", .bool false), ("sample_default_at_target", .bool false),
    ("surrogate_model", .str "gp"), ("acquisition", .str "EI"), ("log_prior_weighted", .bool
    false), ("acquisition_sampler", .str "random")]),
   ("pibo",
    [("strategy", .str "pibo"), ("initial_design_size", .null), ("use_cost", .bool false),
    ("use_priors", .bool true), ("sample_default_first", .bool true), ("device", .null)]),
   ("priorband",
    [("strategy", .str "priorband"), ("eta", .int 3), ("initial_design_type", .str
    "max_budget"), ("prior_confidence", .str "medium"), ("random_interleave_prob", .float 0),
    ("sample_default_first", .bool true), ("sample_default_at_target", .bool false),
    ("prior_weight_type", .str "geometric"), ("inc_sample_type", .str "mutation"),
    ("inc_mutation_rate", .float (1 / 2)), ("inc_mutation_std", .float (1 / 4)), ("inc_style",
    .str "dynamic"), ("model_based", .bool false)]),
   ("priorband_bo",
    [("strategy", .str "priorband"), ("eta", .int 3), ("initial_design_type", .str
    "max_budget"), ("prior_confidence", .str "medium"), ("random_interleave_prob", .float 0),
    ("sample_default_first", .bool true), ("sample_default_at_target", .bool false),
    ("prior_weight_type", .str "geometric"), ("inc_sample_type", .str "mutation"),
    ("inc_mutation_rate", .float (1 / 2)), ("inc_mutation_std", .float (1 / 4)), ("inc_style",
    .str "dynamic"), ("model_based", .bool true), ("modelling_type", .str "joint"),
    ("initial_design_size", .int 10), ("surrogate_model", .str "gp"), ("acquisition", .str
    "EI"), ("log_prior_weighted", .bool false), ("acquisition_sampler", .str "mutation")]),
   ("random_search",
    [("strategy", .str "random_search"), ("use_priors", .bool false), ("ignore_fidelity",
    .bool true)]),
   ("successive_halving",
    [("strategy", .str "successive_halving"), ("eta", .int 3), ("early_stopping_rate", .int
    0), ("initial_design_type", .str "max_budget"), ("use_priors", .bool false),
    ("random_interleave_prob", .float 0), ("sample_default_first", .bool false),
    ("sample_default_at_target", .bool false)]),
   ("successive_halving_prior",
    [("strategy", .str "successive_halving_prior"), ("eta", .int 3), ("early_stopping_rate",
    .int 0), ("initial_design_type", .str "max_budget"), ("prior_confidence", .str "medium"),
    ("random_interleave_prob", .float 0), ("sample_default_first", .bool false),
    ("sample_default_at_target", .bool false)])]

/-- `SearcherConfigs.get_searchers` (neps/optimizers/info.py:25-41). -/
def searcherNames : List String := defaultSearchers.keys

/-- `SearcherMapping` (neps/optimizers/__init__.py:24-42): the class and the arguments of
`partial`. -/
def searcherMapping : Dict (String × Dict Py) :=
  [("bayesian_optimization", "BayesianOptimization", [("use_priors", .bool false)]),
   ("pibo", "BayesianOptimization", [("use_priors", .bool true)]),
   ("random_search", "RandomSearch", []),
   ("grid_search", "GridSearch", []),
   ("successive_halving", "SuccessiveHalving", []),
   ("successive_halving_prior", "SuccessiveHalvingWithPriors", []),
   ("asha", "AsynchronousSuccessiveHalving", []),
   ("hyperband", "Hyperband", []),
   ("asha_prior", "AsynchronousSuccessiveHalvingWithPriors", []),
   ("hyperband_custom_default", "HyperbandCustomDefault", []),
   ("priorband", "PriorBand", []),
   ("priorband_bo", "PriorBand", [("model_based", .bool true)]),
   ("priorband_asha", "PriorBandAsha", []),
   ("priorband_asha_hyperband", "PriorBandAshaHB", []),
   ("mobster", "MOBSTER", []),
   ("ifbo", "IFBO", [])]

/-- `path.with_suffix("")` on the characters of a path: drops the part after the last dot of the
last component, unless the dot is its first or last character. -/
def dropSuffix (cs : List Char) : List Char :=
  let r := cs.reverse
  let ext := r.takeWhile fun c => c ≠ '.' && c ≠ '/'
  match r.dropWhile (fun c => c ≠ '.' && c ≠ '/') with
  | '.' :: c :: base => if ext.isEmpty || c == '/' then cs else (c :: base).reverse
  | _ => cs

/-- `Path(searcher).with_suffix(".yaml")` (neps/utils/common.py:197). -/
def yamlPath (p : String) : String := String.ofList (dropSuffix p.toList) ++ ".yaml"

/-- `user_yaml_path.stem` (neps/utils/common.py:208). -/
def pathStem (p : String) : String :=
  String.ofList ((dropSuffix p.toList).reverse.takeWhile (· ≠ '/')).reverse

/-- `get_searcher_data` of a searcher that comes with the package (neps/utils/common.py:211-239).
Simplification: a name with a directory part has no file. -/
def defaultData (name : String) : Option (Dict Py) :=
  defaultSearchers.get? (String.ofList (dropSuffix name.toList))

/-- `get_searcher_data(searcher, loading_custom_searcher=True)` (neps/utils/common.py:196-209): the
contents without `name`, and the name. -/
def customData (env : Env) (path : String) : Option (Dict Py × Py) :=
  match env.yamlFile (yamlPath path) with
  | some (.dict d) => some (Dict.erase d "name", (Dict.get? d "name").getD (.str (pathStem path)))
  | _ => none

/-- `SearchSpace.has_prior` (neps/search_spaces/search_space.py:202,221-222,227). -/
def _root_.Verif.Space.SearchSpace.hasPrior (s : SearchSpace) : Bool := s.any fun p => p.2.hasPrior

/-- `SearchSpace.has_fidelity` (neps/search_spaces/search_space.py:290-293). -/
def _root_.Verif.Space.SearchSpace.hasFidelity (s : SearchSpace) : Bool := s.fidelity.isSome

/-- The space in `_run_args` (neps/api.py:285-312).  Simplification: `ConfigSpace` objects are
modelled apart, by `runSpace`. -/
def spaceArg (env : Env) : Py → Option SearchSpace
  | .str path | .obj (.path path) => (spaceFile env path).bind SearchSpace.make
  | .obj (.space d) => SearchSpace.make d
  | .dict [] => SearchSpace.make []
  | _ => none

/-- The parameters of `_run_args` (neps/api.py:258-284). -/
structure RunArgs where
  space : Py
  maxCost : Py
  ignoreErrors : Py
  lossOnError : Py
  costOnError : Py
  searcher : Py
  kwargs : Dict Py

/-- `searcher_config`, `searcher_name` and the entries of `searcher_info` after the selection
(neps/api.py:314-357). -/
structure Selected where
  config : Dict Py
  name : Py
  selection : String
  decisionTree : Bool

/-- The searcher NePS decides for (neps/api.py:342-350). -/
def nepsChoice (s : SearchSpace) : String :=
  if s.hasPrior then (if s.hasFidelity then "priorband" else "pibo")
  else (if s.hasFidelity then "hyperband" else "bayesian_optimization")

/-- The user's own YAML file (neps/api.py:320-329). -/
def selectCustom (env : Env) (path : String) : Option Selected := do
  let (config, name) ← customData env path
  return ⟨config.erase "name", (config.get? "name").getD name, "user-yaml", false⟩

/-- A dictionary as searcher (neps/api.py:331-339). -/
def selectDict (d : Dict Py) : Option Selected :=
  match d.get? "strategy" with
  | some (.str strategy) => do
      let dflt ← defaultData strategy
      let config := Dict.update dflt d
      match config.get? "name" with
      | none => return ⟨config, .str ("custom_" ++ strategy), "user-run_args-yaml", false⟩
      | some n => return ⟨config.erase "name", n, "user-run_args-yaml", false⟩
  | _ => none

/-- One of the searchers of the package (neps/api.py:341-357). -/
def selectNamed (name : String) (byNeps : Bool) : Option Selected := do
  let config ← defaultData name
  return ⟨config, .str name, "neps-default", byNeps⟩

/-- The selection (neps/api.py:314-357). -/
def select (env : Env) (space : SearchSpace) : (searcher : Py) → Option Selected
  | .obj (.path p) => selectCustom env p
  | .dict d => selectDict d
  | .null => selectNamed (nepsChoice space) true
  | .str s =>
    if s ∉ searcherNames ∧ s ≠ "default" then selectCustom env s
    else if s = "default" then selectNamed (nepsChoice space) true
    else selectNamed s false
  | _ => none

/-- The strategy and the remaining configuration (neps/api.py:359-372). -/
def popStrategy (config : Dict Py) : Option (Py × Dict Py) :=
  let config := match config.get? "algorithm" with
    | some v => (config.erase "algorithm").set "strategy" v
    | none => config
  match config.get? "strategy" with
  | some v => some (v, config.erase "strategy")
  | none => none

/-- The user's keyword arguments are applied unless NePS decided for the searcher
(neps/api.py:382-403).  Simplification: a value equal to the present one is stored again. -/
def applyKwargs (config kwargs : Dict Py) (decisionTree : Bool) : Dict Py :=
  if decisionTree then config else Dict.update config kwargs

/-- `instance_from_map(SearcherMapping, searcher_alg, "searcher", as_class=True)`
(neps/utils/common.py:265-335): the class and the arguments bound to it. -/
def instanceFromMap : Py → Option (String × Dict Py)
  | .str s => searcherMapping.get? s
  | .list [.str s, .dict args] =>
      (searcherMapping.get? s).map fun c => (c.1, Dict.update c.2 args)
  | .list [.obj (.optClass c), .dict args] | .list [.obj (.otherClass c), .dict args] =>
      some (c, args)
  | .obj (.optClass c) | .obj (.otherClass c) => some (c, [])
  | _ => none

/-- The optimizer a run uses. -/
structure Built where
  /-- the class that is called -/
  cls : String
  space : SearchSpace
  /-- `None` if the class is called without `budget` -/
  budget : Py
  kwargs : Dict Py
  name : Py
  alg : Py
  selection : String
  decisionTree : Bool
  args : Dict Py

/-- The arguments of `partial(cls, **bound)(**final)`: the ones of the call win.  Keyword arguments
have no order. -/
def callArgs (bound final : Dict Py) : Dict Py :=
  final ++ bound.filter fun p => decide (p.1 ∉ final.keys)

/-- `_run_args` (neps/api.py:258-426); a second value for `pipeline_space` or `budget` raises.
The call of the class itself is `Built.make` in `Verif.Args.Construct`. -/
def runArgs (env : Env) (a : RunArgs) : Option Built := do
  let space ← spaceArg env a.space
  let sel ← select env space a.searcher
  let (alg, config) ← popStrategy sel.config
  let config := applyKwargs config a.kwargs sel.decisionTree
  let final := Dict.update config [("loss_value_on_error", a.lossOnError),
    ("cost_value_on_error", a.costOnError), ("ignore_errors", a.ignoreErrors)]
  let (cls, bound) ← instanceFromMap alg
  if "pipeline_space" ∈ final.keys ∨ "budget" ∈ final.keys then none
  else return ⟨cls, space, a.maxCost, callArgs bound final, sel.name, alg, sel.selection,
    sel.decisionTree, config⟩

/-- The names of the parameters of `_run_args` (neps/api.py:258-284). -/
def runArgsNames : List String :=
  ["searcher_info", "pipeline_space", "max_cost_total", "ignore_errors", "loss_value_on_error",
   "cost_value_on_error", "searcher"]

/-- The optimizer of a run. -/
inductive Optimizer where
  /-- an object given by the user -/
  | instance (id : String)
  /-- an object built by `neps.run` -/
  | built (b : Built)

/-- The optimizer for given settings (neps/api.py:153-214). -/
def optimizerOf (env : Env) (s : Dict Py) : Option Optimizer :=
  match s.get? "searcher", s.get? "searcher_kwargs" with
  | some (.obj (.optInst id)), some _ => some (.instance id)
  | some (.obj (.optClass c)), some (.dict kw) =>
    match s.get? "pipeline_space" with
    | some (.obj (.space d)) =>
      (SearchSpace.make d).map fun space =>
        .built ⟨c, space, .null, kw, .str "baseoptimizer", .str c, "user-instantiation", false, kw⟩
    | _ => none
  | some (.obj (.otherClass _)), some _ => none
  | some searcher, some (.dict kw) =>
    if (Dict.keys kw).any fun k => decide (k ∈ runArgsNames) then none
    else
      match runArgs env ⟨(s.get? "pipeline_space").getD .null, (s.get? "max_cost_total").getD .null,
          (s.get? "ignore_errors").getD .null, (s.get? "loss_value_on_error").getD .null,
          (s.get? "cost_value_on_error").getD .null, searcher, kw⟩ with
      | none => none
      | some b =>
        match searcher with
        | .str _ | .dict _ | .obj (.path _) => some (.built b)
        | _ => none
  | _, _ => none

/-- The optimizer `neps.run` uses when it is called with the keyword arguments `call`. -/
def runOptimizer (env : Env) (call : Dict Py) : Option Optimizer := do
  let s ← runSettings env call
  optimizerOf env s

end Verif.Args
