import Verif.Args.Searcher
import Verif.Space.Enhance

/-!
# Model of the constructors of the optimizers

`neps/optimizers/base_optimizer.py`, `neps/optimizers/multi_fidelity/successive_halving.py`,
`neps/optimizers/multi_fidelity/hyperband.py`, `neps/optimizers/multi_fidelity/ifbo.py`,
`neps/optimizers/multi_fidelity_prior/priorband.py`,
`neps/optimizers/multi_fidelity_prior/async_priorband.py`,
`neps/optimizers/random_search/optimizer.py`, `neps/optimizers/grid_search/optimizer.py` and
`neps/optimizers/bayesian_optimization/optimizer.py`: what happens to the keyword arguments
`neps.run` calls the class of a searcher with.

Simplifications, for the whole file: `pipeline_space` is passed from constructor to constructor as
it is and is not among the keyword arguments here; only attributes that hold settings are modelled,
and of the policies only their class and the settings they hold; building the encoder, the prior
and the model policy of the package does not raise.
-/

namespace Verif.Args

open Verif.Space (Dict)
open Verif.Space

/-- The exceptions a constructor raises. -/
inductive Raised where
  | typeError
  | valueError
  | keyError
  | assertionError
  | notImplementedError

/-- What the constructors compute outside the settings. -/
structure Ctx where
  /-- `stopping_rate_limit` for the fidelity of a space and a value of `eta`
  (neps/optimizers/multi_fidelity/successive_halving.py:130-134); `none` if the computation raises.
  Simplification: the logarithms are not modelled; a bracket has at least one rung, as in exact
  arithmetic. -/
  limit : Hp → Py → Option ℤ
  /-- `_adjust_pipeline_space_to_match_stepsize` (neps/optimizers/multi_fidelity/ifbo.py:32-83) of a
  space and a value of `step_size`, `none` if it raises.  It is modelled in `Verif.Ifbo`. -/
  adjust : SearchSpace → Py → Option SearchSpace
  /-- Whether an object that is not a policy of the package can be called with the given keyword
  arguments. -/
  callable : Py → List String → Bool

/-- `stopping_rate_limit` of a space
(neps/optimizers/multi_fidelity/successive_halving.py:130-134). -/
def Ctx.limitOf (ctx : Ctx) (s : SearchSpace) (eta : Py) : Option ℤ :=
  s.fidelity.bind fun f => ctx.limit f.2 eta

/-- A policy of the package, as the value of an argument. -/
def policy (name : String) : Py := .obj (.otherClass name)

/-- The parameters of the constructors of the policies
(neps/optimizers/multi_fidelity/sampling_policy.py:62,76,102-108,282-289,
neps/optimizers/multi_fidelity/promotion_policy.py:12,42,95). -/
def policyParams : Dict (List String) :=
  [("RandomUniformPolicy", ["pipeline_space"]),
   ("FixedPriorPolicy", ["pipeline_space", "fraction_from_prior"]),
   ("EnsemblePolicy", ["pipeline_space", "inc_type"]),
   ("ModelPolicy", ["pipeline_space", "prior", "use_cost", "device"]),
   ("SyncPromotionPolicy", ["eta"]),
   ("AsyncPromotionPolicy", ["eta"])]

/-- Whether calling a policy with these arguments succeeds. -/
def Ctx.accepts (ctx : Ctx) (p : Py) (names : List String) : Bool :=
  match p with
  | .obj (.otherClass c) =>
    match policyParams.get? c with
    | some params => names.all fun n => decide (n ∈ params)
    | none => ctx.callable p names
  | _ => ctx.callable p names

/-- The parameters of a constructor: the ones without default, the ones with, and whether it has
`**kwargs`. -/
structure Sig where
  required : List String
  optional : Dict Py
  rest : Bool

/-- The names of the parameters. -/
def Sig.names (s : Sig) : List String := s.required ++ s.optional.keys

/-- The value of a parameter in a call. -/
def Sig.value (s : Sig) (kw : Dict Py) (p : String) : Py :=
  ((kw.get? p).or (s.optional.get? p)).getD .null

/-- Python's rule for a call with keyword arguments. -/
def Sig.fits (s : Sig) (kw : Dict Py) : Bool :=
  (s.rest || kw.keys.all fun k => decide (k ∈ s.names)) &&
    s.required.all fun k => decide (k ∈ kw.keys)

/-- The value of an argument or attribute: a parameter of the constructor or a constant. -/
inductive Src where
  | arg (p : String)
  | const (v : Py)

/-- Its value in a call. -/
def Src.val (s : Sig) (kw : Dict Py) : Src → Py
  | .arg p => s.value kw p
  | .const v => v

/-- `name=name` for every name. -/
def same (names : List String) : Dict Src := names.map fun n => (n, .arg n)

/-- The values of a list of arguments or attributes in a constructor. -/
def evalAll (s : Sig) (kw : Dict Py) (d : Dict Src) : Dict Py :=
  d.map fun q => (q.1, q.2.val s kw)

/-- The `__init__` of a class. -/
structure Level where
  sig : Sig
  /-- the keyword arguments of `super().__init__` -/
  pass : Dict Src := []
  /-- the rest of the body, given the values of the parameters: the space after it -/
  body : Ctx → SearchSpace → (String → Py) → Except Raised SearchSpace := fun _ s _ => .ok s
  /-- the attributes that are assigned -/
  attrs : Dict Src := []
  /-- `Hyperband`: the class of the brackets and their arguments except the stopping rate -/
  brackets : Option (List Level × Dict Src) := none
  /-- the attributes that are assigned in every bracket -/
  bracketAttrs : Dict Src := []

/-- A class: its constructor, the one that calls with `super().__init__`, and so on. -/
abbrev Chain := List Level

/-- An object under construction: the space, which its brackets share, its attributes and those of
its brackets. -/
structure Made where
  space : SearchSpace
  attrs : Dict Py
  brackets : List (Dict Py)

/-- The parameters of the first constructor. -/
def Chain.sig : Chain → Sig
  | [] => ⟨[], [], true⟩
  | l :: _ => l.sig

/-- Calling a class that has no brackets. -/
noncomputable def plain (ctx : Ctx) :
    Chain → SearchSpace → Dict Py → Except Raised (SearchSpace × Dict Py)
  | [], s, _ => .ok (s, [])
  | l :: ls, s, kw =>
    if l.sig.fits kw then
      match plain ctx ls s (evalAll l.sig kw l.pass) with
      | .error e => .error e
      | .ok (s, attrs) =>
        match l.body ctx s (l.sig.value kw) with
        | .error e => .error e
        | .ok s => .ok (s, attrs.update (evalAll l.sig kw l.attrs))
    else .error .typeError

/-- The loop that builds the brackets with the stopping rates `rates`
(neps/optimizers/multi_fidelity/hyperband.py:88-93,399-403). -/
noncomputable def makeBrackets (ctx : Ctx) (c : Chain) (args : Dict Py) :
    List ℕ → SearchSpace → Except Raised (SearchSpace × List (Dict Py))
  | [], s => .ok (s, [])
  | r :: rs, s =>
    match plain ctx c s (args.set "early_stopping_rate" (.int r)) with
    | .error e => .error e
    | .ok (s, b) =>
      match makeBrackets ctx c args rs s with
      | .error e => .error e
      | .ok (s, bs) => .ok (s, b :: bs)

/-- Calling a class. -/
noncomputable def construct (ctx : Ctx) : Chain → SearchSpace → Dict Py → Except Raised Made
  | [], s, _ => .ok ⟨s, [], []⟩
  | l :: ls, s, kw =>
    if l.sig.fits kw then
      match construct ctx ls s (evalAll l.sig kw l.pass) with
      | .error e => .error e
      | .ok o =>
        match l.body ctx o.space (l.sig.value kw) with
        | .error e => .error e
        | .ok s =>
          match l.brackets with
          | none => .ok ⟨s, o.attrs.update (evalAll l.sig kw l.attrs),
              o.brackets.map fun b => b.update (evalAll l.sig kw l.bracketAttrs)⟩
          | some (c, args) =>
            match makeBrackets ctx c (evalAll l.sig kw args)
                (List.range ((ctx.limitOf s (l.sig.value kw "eta")).getD (-1) + 1).toNat) s with
            | .error e => .error e
            | .ok (s, bs) => .ok ⟨s, o.attrs.update (evalAll l.sig kw l.attrs),
                bs.map fun b => b.update (evalAll l.sig kw l.bracketAttrs)⟩
    else .error .typeError

/-- A number, for comparisons. -/
def Py.asNumber : Py → Option ℚ
  | .int n => some n
  | .float x => some x
  | .bool b => some (if b then 1 else 0)
  | _ => none

/-- `prior_confidence` as the argument of `_enhance_priors`
(neps/optimizers/multi_fidelity/successive_halving.py:464-483); a value that is no text is in no
dictionary of confidences, as the empty text is not. -/
def Py.confidence : Py → Option String
  | .null => none
  | .str s => some s
  | _ => some ""

/-- `BaseOptimizer.__init__` (neps/optimizers/base_optimizer.py:85-107). -/
noncomputable def baseLevel : Level where
  sig :=
    ⟨[], [("patience", .int 50), ("logger", .null), ("budget", .null), ("loss_value_on_error",
      .null), ("cost_value_on_error", .null), ("learning_curve_on_error", .null),
      ("ignore_errors", .bool false)], false⟩
  body := fun _ s v =>
    match (v "patience").asNumber with
    | none => .error .typeError
    | some p => if p < 1 then .error .valueError else .ok s
  attrs := same ["budget", "patience", "loss_value_on_error", "cost_value_on_error",
    "learning_curve_on_error", "ignore_errors"]

/-- `SuccessiveHalvingBase.__init__`
(neps/optimizers/multi_fidelity/successive_halving.py:49-165).  The attribute `a` of a policy is
the attribute `sampling_policy.a` or `promotion_policy.a` here; the policies themselves are
recorded as the classes they are instances of. -/
noncomputable def shBaseLevel : Level where
  sig :=
    ⟨[], [("budget", .null), ("eta", .int 3), ("early_stopping_rate", .int 0),
      ("initial_design_type", .str "max_budget"), ("use_priors", .bool false),
      ("sampling_policy", policy "RandomUniformPolicy"), ("promotion_policy", policy
      "SyncPromotionPolicy"), ("loss_value_on_error", .null), ("cost_value_on_error", .null),
      ("ignore_errors", .bool false), ("prior_confidence", .null), ("random_interleave_prob",
      .float 0), ("sample_default_first", .bool false), ("sample_default_at_target", .bool
      false)], false⟩
  pass := same ["budget", "loss_value_on_error", "cost_value_on_error", "ignore_errors"]
  body := fun ctx s v =>
    match (v "random_interleave_prob").asNumber with
    | none => .error .typeError
    | some p =>
      if p < 0 ∨ 1 < p then .error .valueError
      else if s.fidelity.isNone then .error .assertionError
      else if ¬ ctx.accepts (v "sampling_policy") ["pipeline_space"] then .error .typeError
      else if ¬ ctx.accepts (v "promotion_policy") ["eta"] then .error .typeError
      else match ctx.limitOf s (v "eta"), (v "early_stopping_rate").asNumber with
        | some limit, some r =>
          if r ≤ limit then
            match s.enhance (v "use_priors").truthy (v "prior_confidence").confidence with
            | some s => .ok s
            | none => .error .keyError
          else .error .assertionError
        | _, _ => .error .typeError
  attrs := same ["random_interleave_prob", "sample_default_first", "sample_default_at_target",
    "eta", "early_stopping_rate", "sampling_policy", "promotion_policy",
    "initial_design_type", "use_priors", "prior_confidence"] ++
    [("promotion_policy.eta", .arg "eta")]

/-- The arguments the classes built on successive halving pass on, without `use_priors` and
`early_stopping_rate`. -/
def commonArgs : List String :=
  ["budget", "eta", "initial_design_type", "sampling_policy", "promotion_policy",
   "loss_value_on_error", "cost_value_on_error", "ignore_errors", "prior_confidence",
   "random_interleave_prob", "sample_default_first", "sample_default_at_target"]

/-- `SuccessiveHalvingWithPriors.__init__`
(neps/optimizers/multi_fidelity/successive_halving.py:554-588).  `self.use_priors` is the
attribute of the class. -/
noncomputable def shPriorLevel : Level where
  sig :=
    ⟨["budget"], [("eta", .int 3), ("early_stopping_rate", .int 0), ("initial_design_type", .str
      "max_budget"), ("sampling_policy", policy "FixedPriorPolicy"), ("promotion_policy", policy
      "SyncPromotionPolicy"), ("loss_value_on_error", .null), ("cost_value_on_error", .null),
      ("ignore_errors", .bool false), ("prior_confidence", .str "medium"),
      ("random_interleave_prob", .float 0), ("sample_default_first", .bool false),
      ("sample_default_at_target", .bool false)], false⟩
  pass := same ("early_stopping_rate" :: commonArgs) ++ [("use_priors", .const (.bool true))]

/-- `AsynchronousSuccessiveHalving.__init__`
(neps/optimizers/multi_fidelity/successive_halving.py:594-629). -/
noncomputable def ashaLevel : Level where
  sig :=
    ⟨["budget"], [("eta", .int 3), ("early_stopping_rate", .int 0), ("initial_design_type", .str
      "max_budget"), ("use_priors", .bool false), ("sampling_policy", policy
      "RandomUniformPolicy"), ("promotion_policy", policy "AsyncPromotionPolicy"),
      ("loss_value_on_error", .null), ("cost_value_on_error", .null), ("ignore_errors", .bool
      false), ("prior_confidence", .null), ("random_interleave_prob", .float 0),
      ("sample_default_first", .bool false), ("sample_default_at_target", .bool false)], false⟩
  pass := same ("early_stopping_rate" :: "use_priors" :: commonArgs)

/-- `AsynchronousSuccessiveHalvingWithPriors.__init__`
(neps/optimizers/multi_fidelity/successive_halving.py:637-671).  `self.use_priors` is the
attribute of the class. -/
noncomputable def ashaPriorLevel : Level where
  sig :=
    ⟨["budget"], [("eta", .int 3), ("early_stopping_rate", .int 0), ("initial_design_type", .str
      "max_budget"), ("sampling_policy", policy "FixedPriorPolicy"), ("promotion_policy", policy
      "AsyncPromotionPolicy"), ("loss_value_on_error", .null), ("cost_value_on_error", .null),
      ("ignore_errors", .bool false), ("prior_confidence", .str "medium"),
      ("random_interleave_prob", .float 0), ("sample_default_first", .bool false),
      ("sample_default_at_target", .bool false)], false⟩
  pass := same ("early_stopping_rate" :: commonArgs) ++ [("use_priors", .const (.bool true))]

/-- `SuccessiveHalving` (neps/optimizers/multi_fidelity/successive_halving.py:486-548). -/
noncomputable def shChain : Chain := [shBaseLevel, baseLevel]

/-- `SuccessiveHalvingWithPriors`. -/
noncomputable def shPriorChain : Chain := shPriorLevel :: shChain

/-- `AsynchronousSuccessiveHalving`. -/
noncomputable def ashaChain : Chain := ashaLevel :: shChain

/-- `AsynchronousSuccessiveHalvingWithPriors`. -/
noncomputable def ashaPriorChain : Chain := ashaPriorLevel :: ashaChain

/-- `HyperbandBase.__init__` (neps/optimizers/multi_fidelity/hyperband.py:49-95).
`self.early_stopping_rate` is the attribute of the class; `max_rung` is the limit, as the stopping
rate is 0. -/
noncomputable def hbLevel : Level where
  sig :=
    ⟨["budget"], [("eta", .int 3), ("initial_design_type", .str "max_budget"), ("use_priors",
      .bool false), ("sampling_policy", policy "RandomUniformPolicy"), ("promotion_policy",
      policy "SyncPromotionPolicy"), ("loss_value_on_error", .null), ("cost_value_on_error",
      .null), ("ignore_errors", .bool false), ("prior_confidence", .null),
      ("random_interleave_prob", .float 0), ("sample_default_first", .bool false),
      ("sample_default_at_target", .bool false)], false⟩
  pass := same ("use_priors" :: commonArgs) ++ [("early_stopping_rate", .const (.int 0))]
  brackets := some (shChain, same ("use_priors" :: commonArgs))

/-- `HyperbandWithPriors.__init__` (neps/optimizers/multi_fidelity/hyperband.py:275-307). -/
noncomputable def hbPriorLevel : Level where
  sig :=
    ⟨["budget"], [("eta", .int 3), ("initial_design_type", .str "max_budget"),
      ("sampling_policy", policy "FixedPriorPolicy"), ("promotion_policy", policy
      "SyncPromotionPolicy"), ("loss_value_on_error", .null), ("cost_value_on_error", .null),
      ("ignore_errors", .bool false), ("prior_confidence", .str "medium"),
      ("random_interleave_prob", .float 0), ("sample_default_first", .bool false),
      ("sample_default_at_target", .bool false)], false⟩
  pass := same commonArgs ++ [("use_priors", .const (.bool true))]

/-- `HyperbandCustomDefault.__init__` (neps/optimizers/multi_fidelity/hyperband.py:313-354).  The
weights in `sampling_args` are no settings. -/
noncomputable def hbCustomLevel : Level where
  sig :=
    ⟨["budget"], [("eta", .int 3), ("initial_design_type", .str "max_budget"),
      ("sampling_policy", policy "EnsemblePolicy"), ("promotion_policy", policy
      "SyncPromotionPolicy"), ("loss_value_on_error", .null), ("cost_value_on_error", .null),
      ("ignore_errors", .bool false), ("prior_confidence", .str "medium"),
      ("random_interleave_prob", .float 0), ("sample_default_first", .bool false),
      ("sample_default_at_target", .bool false)], false⟩
  pass := same commonArgs

/-- `AsynchronousHyperband.__init__` (neps/optimizers/multi_fidelity/hyperband.py:363-403). -/
noncomputable def ahbLevel : Level where
  sig :=
    ⟨["budget"], [("eta", .int 3), ("initial_design_type", .str "max_budget"), ("use_priors",
      .bool false), ("sampling_policy", policy "RandomUniformPolicy"), ("promotion_policy",
      policy "AsyncPromotionPolicy"), ("loss_value_on_error", .null), ("cost_value_on_error",
      .null), ("ignore_errors", .bool false), ("prior_confidence", .null),
      ("random_interleave_prob", .float 0), ("sample_default_first", .bool false),
      ("sample_default_at_target", .bool false)], false⟩
  pass := same ("use_priors" :: commonArgs)
  brackets := some (ashaChain, same ("use_priors" :: commonArgs))

/-- `MOBSTER.__init__` (neps/optimizers/multi_fidelity/hyperband.py:497-566).  `model_based` and
`modelling_type` are attributes of the class (lines 494-495). -/
noncomputable def mobsterLevel : Level where
  sig :=
    ⟨["budget"], [("eta", .int 3), ("initial_design_type", .str "max_budget"), ("use_priors",
      .bool false), ("sampling_policy", policy "RandomUniformPolicy"), ("promotion_policy",
      policy "AsyncPromotionPolicy"), ("loss_value_on_error", .null), ("cost_value_on_error",
      .null), ("ignore_errors", .bool false), ("prior_confidence", .null),
      ("random_interleave_prob", .float 0), ("sample_default_first", .bool false),
      ("sample_default_at_target", .bool false), ("model_policy", policy "ModelPolicy"),
      ("surrogate_model", .str "gp"), ("domain_se_kernel", .null), ("hp_kernels", .null),
      ("surrogate_model_args", .null), ("acquisition", .str "EI"), ("log_prior_weighted", .bool
      false), ("acquisition_sampler", .str "random")], false⟩
  pass := same ("use_priors" :: commonArgs)
  body := fun ctx s v =>
    if ctx.accepts (v "model_policy") ["pipeline_space", "prior"] then .ok s else .error .typeError
  attrs := [("model_policy", .arg "model_policy"), ("model_based", .const (.bool true)),
    ("modelling_type", .const (.str "rung"))]
  bracketAttrs := [("model_policy", .arg "model_policy")]

/-- `PriorBand.__init__` (neps/optimizers/multi_fidelity_prior/priorband.py:306-396). -/
noncomputable def priorbandLevel : Level where
  sig :=
    ⟨["budget"], [("eta", .int 3), ("initial_design_type", .str "max_budget"),
      ("sampling_policy", policy "EnsemblePolicy"), ("promotion_policy", policy
      "SyncPromotionPolicy"), ("loss_value_on_error", .null), ("cost_value_on_error", .null),
      ("ignore_errors", .bool false), ("prior_confidence", .str "medium"),
      ("random_interleave_prob", .float 0), ("sample_default_first", .bool true),
      ("sample_default_at_target", .bool true), ("prior_weight_type", .str "geometric"),
      ("inc_sample_type", .str "mutation"), ("inc_mutation_rate", .float (1 / 2)),
      ("inc_mutation_std", .float (1 / 4)), ("inc_style", .str "dynamic"), ("model_based", .bool
      false), ("modelling_type", .str "joint"), ("initial_design_size", .null), ("model_policy",
      policy "ModelPolicy"), ("surrogate_model", .str "gp"), ("surrogate_model_args", .null),
      ("acquisition", .str "EI"), ("log_prior_weighted", .bool false), ("acquisition_sampler",
      .str "random")], false⟩
  pass := same commonArgs
  body := fun ctx s v =>
    if ¬ ctx.accepts (v "sampling_policy") ["pipeline_space", "inc_type"] then .error .typeError
    else if ctx.accepts (v "model_policy") ["pipeline_space", "prior"] then .ok s
    else .error .typeError
  attrs := same ["prior_weight_type", "inc_sample_type", "inc_mutation_rate", "inc_mutation_std",
    "inc_style", "model_based", "modelling_type", "initial_design_size",
    "sampling_policy", "model_policy"] ++ [("sampling_policy.inc_type", .arg
    "inc_sample_type")]
  bracketAttrs := same ["sampling_policy", "model_policy"] ++
    [("sampling_policy.inc_type", .arg "inc_sample_type")]

/-- `PriorBandAsha.__init__` (neps/optimizers/multi_fidelity_prior/async_priorband.py:36-125). -/
noncomputable def pbAshaLevel : Level where
  sig :=
    ⟨["budget"], [("eta", .int 3), ("early_stopping_rate", .int 0), ("initial_design_type", .str
      "max_budget"), ("sampling_policy", policy "EnsemblePolicy"), ("promotion_policy", policy
      "AsyncPromotionPolicy"), ("loss_value_on_error", .null), ("cost_value_on_error", .null),
      ("ignore_errors", .bool false), ("prior_confidence", .str "medium"),
      ("random_interleave_prob", .float 0), ("sample_default_first", .bool true),
      ("sample_default_at_target", .bool true), ("prior_weight_type", .str "geometric"),
      ("inc_sample_type", .str "mutation"), ("inc_mutation_rate", .float (1 / 2)),
      ("inc_mutation_std", .float (1 / 4)), ("inc_style", .str "dynamic"), ("model_based", .bool
      false), ("modelling_type", .str "joint"), ("initial_design_size", .null), ("model_policy",
      policy "ModelPolicy"), ("surrogate_model", .str "gp"), ("domain_se_kernel", .null),
      ("hp_kernels", .null), ("surrogate_model_args", .null), ("acquisition", .str "EI"),
      ("log_prior_weighted", .bool false), ("acquisition_sampler", .str "random")], false⟩
  pass := same ("early_stopping_rate" :: commonArgs)
  body := fun ctx s v =>
    if ¬ ctx.accepts (v "sampling_policy") ["pipeline_space", "inc_type"] then .error .typeError
    else if ctx.accepts (v "model_policy") ["pipeline_space", "prior"] then .ok s
    else .error .typeError
  attrs := same ["prior_weight_type", "inc_sample_type", "inc_mutation_rate", "inc_mutation_std",
    "inc_style", "model_based", "modelling_type", "initial_design_size",
    "sampling_policy", "model_policy"] ++ [("sampling_policy.inc_type", .arg
    "inc_sample_type")]

/-- `PriorBandAshaHB.__init__` (neps/optimizers/multi_fidelity_prior/async_priorband.py:147-232).
`self.early_stopping_rate` is the attribute of the class. -/
noncomputable def pbAshaHbLevel : Level where
  sig :=
    ⟨["budget"], [("eta", .int 3), ("initial_design_type", .str "max_budget"),
      ("sampling_policy", policy "EnsemblePolicy"), ("promotion_policy", policy
      "AsyncPromotionPolicy"), ("loss_value_on_error", .null), ("cost_value_on_error", .null),
      ("ignore_errors", .bool false), ("prior_confidence", .str "medium"),
      ("random_interleave_prob", .float 0), ("sample_default_first", .bool true),
      ("sample_default_at_target", .bool true), ("prior_weight_type", .str "geometric"),
      ("inc_sample_type", .str "mutation"), ("inc_mutation_rate", .float (1 / 2)),
      ("inc_mutation_std", .float (1 / 4)), ("inc_style", .str "dynamic"), ("model_based", .bool
      false), ("modelling_type", .str "joint"), ("initial_design_size", .null), ("model_policy",
      policy "ModelPolicy"), ("surrogate_model", .str "gp"), ("domain_se_kernel", .null),
      ("hp_kernels", .null), ("surrogate_model_args", .null), ("acquisition", .str "EI"),
      ("log_prior_weighted", .bool false), ("acquisition_sampler", .str "random")], false⟩
  pass := same (commonArgs ++ ["prior_weight_type", "inc_sample_type", "inc_mutation_rate",
    "inc_mutation_std", "inc_style", "model_based", "modelling_type", "initial_design_size",
    "model_policy", "surrogate_model", "domain_se_kernel", "hp_kernels", "surrogate_model_args",
    "acquisition", "log_prior_weighted", "acquisition_sampler"]) ++
    [("early_stopping_rate", .const (.int 0))]
  brackets := some (ashaPriorChain, same commonArgs)
  bracketAttrs := same ["sampling_policy", "model_policy"] ++
    [("sampling_policy.inc_type", .arg "inc_sample_type")]

/-- `IFBO.__init__` (neps/optimizers/multi_fidelity/ifbo.py:89-164).  Simplification:
`surrogate_model_args or {}` is `surrogate_model_args`; all exceptions of the adjustment of the
space are taken to be `ValueError`. -/
noncomputable def ifboLevel : Level where
  sig :=
    ⟨[], [("step_size", .int 1), ("use_priors", .bool false), ("sample_default_first", .bool
      false), ("sample_default_at_target", .bool false), ("surrogate_model_args", .null),
      ("initial_design_size", .str "ndim"), ("n_acquisition_new_configs", .int 1000), ("device",
      .null), ("budget", .null), ("loss_value_on_error", .null), ("cost_value_on_error", .null),
      ("ignore_errors", .bool false)], false⟩
  body := fun ctx s v =>
    if s.fidelity.isNone then .error .assertionError
    else match ctx.adjust s (v "step_size") with
      | some s => .ok s
      | none => .error .valueError
  attrs := same ["step_size", "use_priors", "sample_default_first", "sample_default_at_target",
    "device", "n_acquisition_new_configs", "surrogate_model_args"] ++
    [("n_initial_design", .arg "initial_design_size")]

/-- `RandomSearch.__init__` (neps/optimizers/random_search/optimizer.py:20-44). -/
noncomputable def randomLevel : Level where
  sig :=
    ⟨[], [("use_priors", .bool false), ("ignore_fidelity", .bool true), ("seed", .null)], true⟩
  body := fun _ s v => if (v "seed").isNull then .ok s else .error .notImplementedError
  attrs := same ["use_priors", "ignore_fidelity", "seed"]

/-- `GridSearch.__init__` (neps/optimizers/grid_search/optimizer.py:17-29).  Simplification:
making the grid does not raise. -/
noncomputable def gridLevel : Level where
  sig :=
    ⟨[], [("grid_step_size", .int 10), ("seed", .null)], false⟩
  attrs := same ["seed"]

/-- `BayesianOptimization.__init__` (neps/optimizers/bayesian_optimization/optimizer.py:63-139).
Simplification: there are no graph parameters. -/
noncomputable def boLevel : Level where
  sig :=
    ⟨[], [("initial_design_size", .null), ("use_priors", .bool false), ("use_cost", .bool
      false), ("cost_on_log_scale", .bool true), ("sample_default_first", .bool false),
      ("device", .null), ("encoder", .null), ("seed", .null), ("budget", .null),
      ("surrogate_model", .null), ("loss_value_on_error", .null), ("cost_value_on_error",
      .null), ("ignore_errors", .null)], false⟩
  body := fun _ s v =>
    if ¬ (v "seed").isNull then .error .notImplementedError
    else if s.fidelity.isSome then .error .valueError
    else .ok s
  attrs := same ["use_cost", "use_priors", "cost_on_log_scale", "device", "sample_default_first"]
    ++ [("n_initial_design", .arg "initial_design_size")]

/-- The constructors of the classes in `SearcherMapping` (neps/optimizers/__init__.py:24-42), in the
order in which `super().__init__` reaches them; `MFBOBase` and `PriorBandBase` have none. -/
noncomputable def chainOf : String → Option Chain
  | "BayesianOptimization" => some [boLevel, baseLevel]
  | "RandomSearch" => some [randomLevel, baseLevel]
  | "GridSearch" => some [gridLevel, baseLevel]
  | "SuccessiveHalving" => some shChain
  | "SuccessiveHalvingWithPriors" => some shPriorChain
  | "AsynchronousSuccessiveHalving" => some ashaChain
  | "AsynchronousSuccessiveHalvingWithPriors" => some ashaPriorChain
  | "Hyperband" => some (hbLevel :: shChain)
  | "HyperbandCustomDefault" => some (hbCustomLevel :: hbPriorLevel :: hbLevel :: shChain)
  | "PriorBand" => some (priorbandLevel :: hbCustomLevel :: hbPriorLevel :: hbLevel :: shChain)
  | "PriorBandAsha" => some (pbAshaLevel :: ashaPriorChain)
  | "PriorBandAshaHB" => some (pbAshaHbLevel :: pbAshaLevel :: ashaPriorChain)
  | "MOBSTER" => some (mobsterLevel :: ahbLevel :: hbLevel :: shChain)
  | "IFBO" => some [ifboLevel, baseLevel]
  | _ => none

/-- The call of the class of a searcher (neps/api.py:414-420). -/
noncomputable def Built.make (ctx : Ctx) (b : Built) : Option (Except Raised Made) :=
  (chainOf b.cls).map fun c => construct ctx c b.space (("budget", b.budget) :: b.kwargs)

end Verif.Args
