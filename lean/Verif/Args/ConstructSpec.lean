import Verif.Args.Construct

/-!
# Specification: what the settings of an optimizer are
-/

namespace Verif.Args

open Verif.Space (Dict)
open Verif.Space

/-- Calling the class of a searcher gives the optimizer `o`. -/
def Gives (ctx : Ctx) (b : Built) (o : Made) : Prop := b.make ctx = some (.ok o)

/-- Calling the class of a searcher raises `e`. -/
def Raises (ctx : Ctx) (b : Built) (e : Raised) : Prop := b.make ctx = some (.error e)

/-- Some attribute of the optimizer. -/
def Made.attr (o : Made) (a : String) : Option Py := o.attrs.get? a

/-- The settings all optimizers based on successive halving have. -/
def halvingSettings : List String :=
  ["eta", "initial_design_type", "sampling_policy", "promotion_policy", "prior_confidence",
   "random_interleave_prob", "sample_default_first", "sample_default_at_target"]

/-- The settings PriorBand adds. -/
def priorbandSettings : List String :=
  ["prior_weight_type", "inc_sample_type", "inc_mutation_rate", "inc_mutation_std", "inc_style",
   "model_based", "modelling_type", "initial_design_size", "model_policy"]

/-- What a run tells every optimizer. -/
def toldSettings : List String :=
  ["budget", "loss_value_on_error", "cost_value_on_error", "ignore_errors"]

/-- The settings of the model, which the files of `mobster` and `priorband_bo` offer to the user. -/
def modelSettings : List String :=
  ["surrogate_model", "acquisition", "log_prior_weighted", "acquisition_sampler"]

/-- The classes based on successive halving. -/
def halvingClasses : List String :=
  ["SuccessiveHalving", "SuccessiveHalvingWithPriors", "AsynchronousSuccessiveHalving",
   "AsynchronousSuccessiveHalvingWithPriors", "Hyperband", "HyperbandCustomDefault", "PriorBand",
   "PriorBandAsha", "PriorBandAshaHB", "MOBSTER"]

/-- Those that run several brackets. -/
def bracketClasses : List String :=
  ["Hyperband", "HyperbandCustomDefault", "PriorBand", "PriorBandAshaHB", "MOBSTER"]

/-- The classes that decide themselves whether the prior is used. -/
def priorClasses : List String :=
  ["SuccessiveHalvingWithPriors", "AsynchronousSuccessiveHalvingWithPriors",
   "HyperbandCustomDefault", "PriorBand", "PriorBandAsha", "PriorBandAshaHB"]

/-- The settings of a class and the attributes that show them. -/
def shownSettings (cls : String) : List (String × String) :=
  if cls = "BayesianOptimization" then
    [("initial_design_size", "n_initial_design"), ("use_priors", "use_priors"),
     ("use_cost", "use_cost"), ("cost_on_log_scale", "cost_on_log_scale"),
     ("sample_default_first", "sample_default_first"), ("device", "device")]
  else if cls = "RandomSearch" then
    [("use_priors", "use_priors"), ("ignore_fidelity", "ignore_fidelity"), ("seed", "seed")]
  else if cls = "IFBO" then
    [("step_size", "step_size"), ("use_priors", "use_priors"),
     ("sample_default_first", "sample_default_first"),
     ("sample_default_at_target", "sample_default_at_target"),
     ("surrogate_model_args", "surrogate_model_args"),
     ("initial_design_size", "n_initial_design"),
     ("n_acquisition_new_configs", "n_acquisition_new_configs"), ("device", "device")]
  else if cls ∈ halvingClasses then
    (halvingSettings ++ toldSettings ++
      (if cls ∈ priorClasses then [] else ["use_priors"]) ++
      (if cls ∈ bracketClasses then [] else ["early_stopping_rate"]) ++
      (if cls ∈ ["PriorBand", "PriorBandAsha", "PriorBandAshaHB"] then priorbandSettings else []) ++
      (if cls = "MOBSTER" then ["model_policy"] else [])).map (fun k => (k, k)) ++
    [("eta", "promotion_policy.eta")] ++
    (if cls ∈ ["PriorBand", "PriorBandAsha", "PriorBandAshaHB"] then
      [("inc_sample_type", "sampling_policy.inc_type")] else [])
  else []

/-- The defaults of the settings of an optimizer based on successive halving. -/
def halvingDefault (cls : String) : Dict Py :=
  [("eta", .int 3), ("initial_design_type", .str "max_budget"), ("random_interleave_prob", .float 0),
   ("loss_value_on_error", .null), ("cost_value_on_error", .null), ("ignore_errors", .bool false),
   ("prior_confidence", if cls ∈ priorClasses then .str "medium" else .null),
   ("sample_default_first",
     .bool (decide (cls ∈ ["PriorBand", "PriorBandAsha", "PriorBandAshaHB"]))),
   ("sample_default_at_target",
     .bool (decide (cls ∈ ["PriorBand", "PriorBandAsha", "PriorBandAshaHB"]))),
   ("sampling_policy", policy (
     if cls ∈ ["PriorBand", "PriorBandAsha", "PriorBandAshaHB", "HyperbandCustomDefault"] then
       "EnsemblePolicy"
     else if cls ∈ priorClasses then "FixedPriorPolicy" else "RandomUniformPolicy")),
   ("promotion_policy", policy (
     if cls ∈ ["AsynchronousSuccessiveHalving", "AsynchronousSuccessiveHalvingWithPriors",
       "PriorBandAsha", "PriorBandAshaHB", "MOBSTER"] then "AsyncPromotionPolicy"
     else "SyncPromotionPolicy"))] ++
  (if cls ∈ priorClasses then [] else [("use_priors", .bool false)]) ++
  (if cls ∈ bracketClasses then [] else [("early_stopping_rate", .int 0)]) ++
  (if cls ∈ ["PriorBand", "PriorBandAsha", "PriorBandAshaHB"] then
    [("prior_weight_type", .str "geometric"), ("inc_sample_type", .str "mutation"),
     ("inc_mutation_rate", .float (1 / 2)), ("inc_mutation_std", .float (1 / 4)),
     ("inc_style", .str "dynamic"), ("model_based", .bool false), ("modelling_type", .str "joint"),
     ("initial_design_size", .null), ("model_policy", policy "ModelPolicy")] else [])

/-- The defaults of the settings of the other classes. -/
def flatDefault : String → Dict Py
  | "BayesianOptimization" =>
    [("initial_design_size", .null), ("use_priors", .bool false), ("use_cost", .bool false),
     ("cost_on_log_scale", .bool true), ("sample_default_first", .bool false), ("device", .null)]
  | "RandomSearch" =>
    [("use_priors", .bool false), ("ignore_fidelity", .bool true), ("seed", .null)]
  | "IFBO" =>
    [("step_size", .int 1), ("use_priors", .bool false), ("sample_default_first", .bool false),
     ("sample_default_at_target", .bool false), ("initial_design_size", .str "ndim"),
     ("n_acquisition_new_configs", .int 1000), ("device", .null)]
  | _ => []

/-- The names of the parameters of a class. -/
noncomputable def parametersOf (cls : String) : List String :=
  ((chainOf cls).map fun c => c.sig.names).getD []

/-- The value of a setting: the given one, or the default in the signature of the class. -/
noncomputable def Built.setting (b : Built) (k : String) : Py :=
  ((if k = "budget" then some b.budget else b.kwargs.get? k).or
    ((chainOf b.cls).bind fun c => c.sig.optional.get? k)).getD .null

/-- The value a setting has in a class: some classes decide for the prior, and those with several
brackets start with the stopping rate 0. -/
noncomputable def Built.chosen (b : Built) (k : String) : Py :=
  if k = "use_priors" ∧ b.cls ∈ priorClasses then .bool true
  else if k = "early_stopping_rate" ∧ b.cls ∈ bracketClasses then .int 0
  else b.setting k

/-- All given settings are parameters of the class. -/
def Built.NamesOk (b : Built) : Prop := ∀ k ∈ b.kwargs.keys, k ∈ parametersOf b.cls

/-- The policies the optimizers with a model need can be called. -/
def PoliciesOk (ctx : Ctx) (cls : String) (v : String → Py) : Prop :=
  (cls ∈ ["PriorBand", "PriorBandAsha", "PriorBandAshaHB"] →
    ctx.accepts (v "sampling_policy") ["pipeline_space", "inc_type"] = true) ∧
  (cls ∈ ["PriorBand", "PriorBandAsha", "PriorBandAshaHB", "MOBSTER"] →
    ctx.accepts (v "model_policy") ["pipeline_space", "prior"] = true)

/-- Valid values for an optimizer based on successive halving: the probability is one, the policies
can be called, the space has a fidelity, the stopping rate is possible for it, and the confidence is
known. -/
structure HalvingOk (ctx : Ctx) (s : SearchSpace) (v : String → Py) : Prop where
  prob : ∃ q, (v "random_interleave_prob").asNumber = some q ∧ 0 ≤ q ∧ q ≤ 1
  sampling : ctx.accepts (v "sampling_policy") ["pipeline_space"] = true
  promotion : ctx.accepts (v "promotion_policy") ["eta"] = true
  rate : ∃ limit r, ctx.limitOf s (v "eta") = some limit ∧
    (v "early_stopping_rate").asNumber = some r ∧ r ≤ limit
  confidence : ∃ s', s.enhance (v "use_priors").truthy (v "prior_confidence").confidence = some s'

end Verif.Args
