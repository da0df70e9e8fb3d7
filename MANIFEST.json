{
 "claims": [
  {
   "property": "C01",
   "status": "proved",
   "theorems": [
    "Neps.Store.C01_stale_put_rejected"
   ],
   "note": ""
  },
  {
   "property": "C02",
   "status": "proved",
   "theorems": [
    "Neps.Store.C02_synced_returns_latest",
    "Neps.Store.C02_load_returns_latest"
   ],
   "note": ""
  },
  {
   "property": "C03",
   "status": "proved",
   "theorems": [
    "Neps.Store.C03_acquire_loses_no_update"
   ],
   "note": ""
  },
  {
   "property": "C04",
   "status": "partial",
   "theorems": [
    "Neps.Store.C04_crash_in_put_partial",
    "Neps.Store.C04_crash_in_put_fails"
   ],
   "note": "False between the data write and the version bump (refuted on a witness); proved at every other crash point."
  },
  {
   "property": "C05",
   "status": "partial",
   "theorems": [
    "Neps.Store.C05_crash_in_new_partial",
    "Neps.Store.C05_crash_in_new_fails"
   ],
   "note": "False between the version bump and the data write (refuted for all data); proved at every other crash point."
  },
  {
   "property": "C06",
   "status": "proved",
   "theorems": [
    "Neps.Store.C06_creation_never_overwrites",
    "Neps.Store.C06_one_initial_value_wins"
   ],
   "note": ""
  },
  {
   "property": "C07",
   "status": "partial",
   "theorems": [
    "Neps.Run.C07_evaluated_once_partial",
    "Neps.Run.C07_sequential_evaluated_once",
    "Neps.Run.C07_evaluated_once_fails"
   ],
   "note": "Refuted for two concurrent workers (a worker can fetch a trial after another one claimed it and claim it again). Proved for every schedule in which no claim starts from a copy that no longer said PENDING, and unconditionally for workers that run one after the other."
  },
  {
   "property": "C08",
   "status": "proved",
   "theorems": [
    "Neps.Run.C08_nothing_lost",
    "Neps.Run.C08_ids_kept"
   ],
   "note": ""
  },
  {
   "property": "C09",
   "status": "proved",
   "theorems": [
    "Neps.Run.C09_n_oldest",
    "Neps.Run.C09_worker_takes_oldest"
   ],
   "note": "Sampling times are clock readings, hence not NaN. The scan is uninterrupted: with interference the returned trial may no longer be pending, see C07."
  },
  {
   "property": "C10",
   "status": "proved",
   "theorems": [
    "Neps.Run.C10_budget_is_sum"
   ],
   "note": "Costs are exact numbers (no rounding)."
  },
  {
   "property": "C100",
   "status": "partial",
   "theorems": [
    "Neps.Cli.C100_refused",
    "Neps.Cli.C100_last_wins",
    "Neps.Cli.C100_roundtrip_partial",
    "Neps.Cli.C100_text",
    "Neps.Cli.C100_inf_fails",
    "Neps.Cli.C100_id_fails"
   ],
   "note": "Infinities and NaN arrive as texts, and texts such as 1_0 as numbers."
  },
  {
   "property": "C101",
   "status": "proved",
   "theorems": [
    "Neps.Cli.C101_duration",
    "Neps.Cli.C101_same"
   ],
   "note": "For durations that are not negative."
  },
  {
   "property": "C102",
   "status": "proved",
   "theorems": [
    "Verif.Arch.C102_builtin",
    "Verif.Arch.C102_breadth_first",
    "Verif.Arch.C102_sequential",
    "Verif.Arch.C102_small",
    "Verif.Arch.C102_missing_operation_fails",
    "Verif.Arch.C102_late_input_fails"
   ],
   "note": "For the predefined topologies with one operation per edge, and for every graph numbered breadth first. Built with fewer operations than edges, a topology silently drops the rest (C102_missing_operation_fails); a graph not numbered breadth first evaluates a node twice and returns a wrong value (C102_late_input_fails). For topologies as operations of topologies see C159: the predefined constructors raise an exception for them. Edges are taken as constructed; see C160 for the constructor of their default operation, which raises."
  },
  {
   "property": "C103",
   "status": "partial",
   "theorems": [
    "Neps.Run.C103_continue_partial",
    "Neps.Run.C103_directory_partial",
    "Neps.Run.C103_lightning",
    "Neps.Run.C103_extension_fails",
    "Neps.Run.C103_object_fails",
    "Neps.Run.C103_latest_fails"
   ],
   "note": "Holds with names compared without their extension and for contents torch accepts with weights_only. Fails otherwise: names that differ only in the extension overwrite each other, other objects are saved and then cannot be loaded, and load_lightning_checkpoint raises when there are two checkpoint files although it documents loading the latest one."
  },
  {
   "property": "C104",
   "status": "partial",
   "theorems": [
    "Neps.Tb.C104_log_partial",
    "Neps.Tb.C104_returns",
    "Neps.Tb.C104_disabled",
    "Neps.Tb.C104_switch",
    "Neps.Tb.C104_names_fails",
    "Neps.Tb.C104_first_logged_nothing_fails",
    "Neps.Tb.C104_incumbent_partial",
    "Neps.Tb.C104_own_result_fails",
    "Neps.Tb.C104_second_run_fails"
   ],
   "note": "Everything is written, once, in the right log. But the first call for a trial uses the curve name config_<id> and later ones <id>; a continued trial whose first trial logged nothing gets a FileNotFoundError; the incumbent graph lacks the evaluation that ends; the points of a second run in a process go to the first run's graph."
  },
  {
   "property": "C105",
   "status": "proved",
   "theorems": [
    "Neps.Tb.C105_grid",
    "Neps.Tb.C105_first",
    "Neps.Tb.C105_empty_fails"
   ],
   "note": "For a batch with at least one image; with an empty batch the call raises (C105_empty_fails)."
  },
  {
   "property": "C106",
   "status": "partial",
   "theorems": [
    "Verif.Space.C106_density",
    "Verif.Space.SearchSpace.C106_product_partial",
    "Verif.Space.SearchSpace.C106_log_partial",
    "Verif.Space.SearchSpace.C106_closer_partial",
    "Verif.Space.C106_set_default_fails"
   ],
   "note": "For parameters whose last value was accepted and, for integers on a log scale, whose default was not changed after construction. After set_default such an integer keeps its old prior, or compute_prior raises AssertionError if it had none."
  },
  {
   "property": "C107",
   "status": "partial",
   "theorems": [
    "Verif.Space.SearchSpace.C107_prior_score",
    "Verif.Space.SearchSpace.C107_scores_partial",
    "Verif.Space.SearchSpace.C107_incumbent_ignored_fails",
    "Verif.Space.SearchSpace.C107_log_integer_fails",
    "Verif.Space.C107_fidelity_fails"
   ],
   "note": "The score of the prior for all spaces; that of the incumbent for spaces without categorical parameters and integers on a log scale. For those the incumbent is ignored, a log scale integer without a default (a fidelity) makes the call raise, and the fidelity is counted in the score of the incumbent."
  },
  {
   "property": "C108",
   "status": "partial",
   "theorems": [
    "Neps.Plot.C108_evaluations_partial",
    "Neps.Plot.C108_single_partial",
    "Neps.Plot.C108_reached_partial",
    "Neps.Plot.C108_fidelity_axis_partial",
    "Neps.Plot.C108_crashed_fails",
    "Neps.Plot.C108_continuation_ignored_fails",
    "Neps.Plot.C108_anticipates_fails",
    "Neps.Plot.C108_rungs_order_fails",
    "Neps.Plot.C108_elapsed_added_fails",
    "Neps.Plot.C108_ragged_fails"
   ],
   "note": "Holds for black-box runs without failed trials when evaluations are counted, and for one seed with any positive costs. With several seeds and costs the curve shows losses before they are found; one crashed trial makes neps.plot raise; multi-fidelity trials are taken in the order of their ids; continuation costs are never subtracted (the metadata key looked up does not exist) and with several workers elapsed times are added up again; seeds of different lengths raise with numpy 1.24 and later."
  },
  {
   "property": "C109",
   "status": "partial",
   "theorems": [
    "Verif.Gram.C109_compose_partial",
    "Verif.Gram.C109_grammar_partial",
    "Verif.Gram.C109_unit_production_fails",
    "Verif.Gram.C109_primitive_fails"
   ],
   "note": "Proved for all grammars whose productions apply a topology or are one primitive operation, and for trees in which a production without a topology is above at most one topology. Refuted in general: below a unit production nested topologies are applied at the wrong bracket, so (S (A Seq (B Res (O x) (O y)) (O z))) becomes Seq(Res(x, y, z)) without an error; a tree that is one primitive operation raises IndexError. The constructors of the topologies are taken as given; the predefined ones raise an exception when applied to topologies (C159). Edges are taken as constructed; see C160 for the constructor of their default operation, which raises."
  },
  {
   "property": "C11",
   "status": "proved",
   "theorems": [
    "Neps.Run.C11_error_log"
   ],
   "note": ""
  },
  {
   "property": "C110",
   "status": "partial",
   "theorems": [
    "Verif.Arch.C110_flatten_partial",
    "Verif.Arch.C110_builtin_partial",
    "Verif.Arch.C110_merge_fails"
   ],
   "note": "Proved for all nestings whose topologies merge by adding. C110_merge_fails: a topology with its own merge_fn is flattened into one that adds (comb_op stays sum), so its function changes. The nested graph is taken as built; the predefined topologies raise an exception when nested (C159). Edges are taken as constructed; see C160 for the constructor of their default operation, which raises."
  },
  {
   "property": "C111",
   "status": "partial",
   "theorems": [
    "Verif.Arch.C111_pruned",
    "Verif.Arch.C111_zero_name",
    "Verif.Arch.C111_function_partial",
    "Verif.Arch.C111_bias_fails",
    "Verif.Arch.C111_zero_name_fails"
   ],
   "note": "What is left is proved exactly. The function is kept if operations make zero of zero; C111_bias_fails shows that it is not otherwise. C111_zero_name_fails: the names of zero operations are looked for as parts of names (core_graph_grammar.py:755), so an operation named nonzero is removed. Edges are taken as constructed; see C160 for the constructor of their default operation, which raises."
  },
  {
   "property": "C112",
   "status": "partial",
   "theorems": [
    "Verif.Arch.C112_generated",
    "Verif.Arch.C112_module_partial",
    "Verif.Arch.C112_no_zero_partial",
    "Verif.Arch.C112_disconnected",
    "Verif.Arch.C112_recursive_attribute_fails"
   ],
   "note": "The generated forward method is run in the model and computes the function of the nested topologies. C112_recursive_attribute_fails: without set_recursive_attribute to_pytorch reads an unbound variable (api.py:147-150) and always raises. Edges are taken as constructed; see C160 for the constructor of their default operation, which raises."
  },
  {
   "property": "C113",
   "status": "partial",
   "theorems": [
    "Verif.Gram.C113_function",
    "Verif.Gram.C113_object",
    "Verif.Gram.C113_prior",
    "Verif.Gram.C113_function_complete",
    "Verif.Gram.C113_object_complete",
    "Verif.Gram.C113_no_constraint_fails"
   ],
   "note": "Soundness and completeness are proved for constraint functions and constraint objects. Completeness needs a constraint for every operation: a constraint object that returns None for an operation, which the code means to allow, raises as soon as an argument of the operation has been sampled (C113_no_constraint_fails)."
  },
  {
   "property": "C114",
   "status": "partial",
   "theorems": [
    "Verif.Gram.C114_mutate_partial",
    "Verif.Gram.C114_lenient_partial",
    "Verif.Gram.C114_complete_partial",
    "Verif.Gram.C114_context_fails",
    "Verif.Gram.C114_brackets_fails",
    "Verif.Gram.C114_later_fails"
   ],
   "note": "Proved for constraint functions and tidy grammars (every production begins with the name of an operation that is unique among the productions of its nonterminal) where the name of a nonterminal does not occur in the text of its arguments, up to closing brackets in what the function is told. The code violates the full property: the operation is looked for with rfind of the name of the nonterminal, which finds it inside other names and raises (C114_context_fails); the last later argument is told with additional closing brackets (C114_brackets_fails); the later arguments are not checked again (C114_later_fails). Missing: constraint objects (they bring their own method)."
  },
  {
   "property": "C115",
   "status": "partial",
   "theorems": [
    "Verif.Gram.C115_crossover_partial",
    "Verif.Gram.C115_zero_fails"
   ],
   "note": "Proved under the conditions of C114 and if the none operation is called zero: the code compares with this literal instead of the name given by the user, so for other names the constraint is ignored (C115_zero_fails)."
  },
  {
   "property": "C116",
   "status": "partial",
   "theorems": [
    "Verif.Gram.C116_structure_partial",
    "Verif.Gram.C116_comma_fails",
    "Verif.Gram.C116_undeclared_fails"
   ],
   "note": "Proved for every well written structure: names without blanks and quotes, and a blank behind every comma. Without the blank two names merge into one (C116_comma_fails), and an undeclared name is accepted as a nonterminal without productions, so that sampling raises (C116_undeclared_fails). A list of structures, which the signature offers, always raises in the constructor. The reader of nltk is modelled from its documented behaviour: it is not part of the repository."
  },
  {
   "property": "C117",
   "status": "partial",
   "theorems": [
    "Neps.Run.C117_overshoot_each_partial",
    "Neps.Run.C117_overshoot_total_partial",
    "Neps.Run.C117_time_overshoot_partial",
    "Neps.Run.C117_overshoot_fails"
   ],
   "note": "Proved for all executions in which no trial is claimed a second time from an outdated view (the fault of C07). With such a claim a worker can replace a report by a cheaper one, the total falls below the limit again, and the worker starts further evaluations: C117_overshoot_fails."
  },
  {
   "property": "C118",
   "status": "proved",
   "theorems": [
    "Neps.Run.C118_alone_finishes",
    "Neps.Run.C118_alone_ends",
    "Neps.Run.C118_alone_goes_on"
   ],
   "note": ""
  },
  {
   "property": "C119",
   "status": "partial",
   "theorems": [
    "Verif.Args.C119_space_partial",
    "Verif.Args.C119_sampled_partial",
    "Verif.Args.C119_loaded_partial",
    "Verif.Args.C119_refused",
    "Verif.Args.C119_default_is_prior",
    "Verif.Args.C119_steps_fails",
    "Verif.Args.C119_one_choice_fails",
    "Verif.Args.C119_clash_fails"
   ],
   "note": "Proved for spaces without step widths and single choices and with distinct names. The code drops the step width of a hyperparameter (C119_steps_fails), refuses a legal hyperparameter with one choice (C119_one_choice_fails), and lets a name declared twice silently replace the first declaration (C119_clash_fails). The default every ConfigSpace hyperparameter has counts as a prior, so such a space is never searched by the default searcher for spaces without priors (C119_default_is_prior)."
  },
  {
   "property": "C12",
   "status": "proved",
   "theorems": [
    "Neps.Run.C12_worker_limit_exact"
   ],
   "note": ""
  },
  {
   "property": "C120",
   "status": "partial",
   "theorems": [
    "Neps.Status.C120_files_partial",
    "Neps.Status.C120_stale_fails"
   ],
   "note": "Proved for every interleaving: after a writer that has read everything gets the lock, every trial evaluated when it began is listed once, and each row was true at some moment since. Missing because the code does not do it: the trials are read before the lock is taken and, since the pending counts are always 0 (C40), the file is always replaced, so a late writer with old data replaces newer files (C120_stale_fails)."
  },
  {
   "property": "C121",
   "status": "partial",
   "theorems": [
    "Neps.Status.C121_status_partial",
    "Neps.Status.C121_flags_fails"
   ],
   "note": "Proved without the flags best_losses, best_configs, all_configs; the pending trials are wrong as in C40. With a flag and at least one evaluated trial the call raises FileNotFoundError, because nothing in the program writes the text files it reads (C121_flags_fails)."
  },
  {
   "property": "C122",
   "status": "partial",
   "theorems": [
    "Verif.Arch.C122_history",
    "Verif.Arch.C122_copies",
    "Verif.Arch.C122_sampled",
    "Verif.Arch.C122_equal_partial",
    "Verif.Arch.C122_invalid_fails",
    "Verif.Arch.C122_compare_fails",
    "Verif.Arch.C122_default_fails"
   ],
   "note": "Identifier, value, copies, sampling and offspring are proved for all histories. Refuted: a refused identifier destroys the old architecture (graph_grammar.py:90-98), comparing parameters without a value raises, a copy loses the default."
  },
  {
   "property": "C123",
   "status": "partial",
   "theorems": [
    "Verif.Arch.C123_identifiers_partial",
    "Verif.Arch.C123_stored_fails",
    "Verif.Arch.C123_nodes_fails"
   ],
   "note": "Configurations that name architectures by identifier are loaded faithfully. Refuted for what is stored: hp_values hands over the parameter object, which files.py:31-32 writes as the list of its graph nodes, empty after sampling, so every architecture is stored as [] and cannot be loaded."
  },
  {
   "property": "C124",
   "status": "partial",
   "theorems": [
    "Verif.Repr.C124_graph_partial",
    "Verif.Repr.C124_builtin",
    "Verif.Repr.C124_single_operation_fails",
    "Verif.Repr.C124_edge_order_fails"
   ],
   "note": "Proved for every text of a tree that applies a topology to as many arguments as it has edges, nested to any depth, for all topologies whose edges have one start, one end, no cycle and are listed in order, and for every topological order used for pruning. Fails for an architecture that is a single operation (IndexError) and for topologies whose edges are listed out of order (the node of an argument is lost). C124_builtin: all topologies of the package, with any number of edges and nodes, meet what is asked of topologies."
  },
  {
   "property": "C125",
   "status": "proved",
   "theorems": [
    "Verif.Sampling.TruncNormal.C125_log_prob",
    "Verif.Sampling.TruncNormal.C125_density",
    "Verif.Sampling.TruncNormal.C125_range",
    "Verif.Sampling.TruncNormal.C125_cdf",
    "Verif.Sampling.TruncNormal.C125_samples",
    "Verif.Sampling.TruncNormal.C125_mean",
    "Verif.Sampling.TruncNormal.C125_monotone",
    "Verif.Sampling.C125_prior"
   ],
   "note": "The target is Mathlib's gaussianReal conditioned on the interval between the bounds. The law of the samples, cdf and the density are compared with it, with explicit bounds for the effect of the clamping of probabilities; C125_prior shows that every default and confidence meets the hypotheses. Exact reals; erf is the integral, erfinv its inverse."
  },
  {
   "property": "C126",
   "status": "partial",
   "theorems": [
    "Verif.Args.C126_accepts",
    "Verif.Args.C126_call_partial",
    "Verif.Args.C126_values",
    "Verif.Args.C126_kwargs_fails"
   ],
   "note": "Proved for all command lines whose searcher items do not have the name of an argument of neps.run. Otherwise the item silently replaces the option (C126_kwargs_fails: --max-evaluations-total 10 --searcher-kwargs max_evaluations_total=3 runs 3 evaluations). Modelled from the grouping of words into options; abbreviations of options are not modelled."
  },
  {
   "property": "C127",
   "status": "partial",
   "theorems": [
    "Verif.Args.C127_option_partial",
    "Verif.Args.C127_file_partial",
    "Verif.Args.C127_no_directory",
    "Verif.Args.C127_task_fails",
    "Verif.Args.C127_section_fails"
   ],
   "note": "Holds exactly for runs without task_id and development_stage_id; with one of them the commands look at a directory above the run (C127_task_fails, for all such runs). A root_directory in a section of run_config.yaml is accepted by neps.run and not found by the commands (C127_section_fails)."
  },
  {
   "property": "C128",
   "status": "partial",
   "theorems": [
    "Neps.Create.C128_looks_do_not_disturb",
    "Neps.Create.C128_shows_what_was_stored",
    "Neps.Create.C128_look_at_started_run",
    "Neps.Create.C128_no_torn_file",
    "Neps.Create.C128_raises_when_missing",
    "Neps.Create.C128_undisturbed_look",
    "Neps.Create.C128_wrong_directory_fails",
    "Neps.Create.C128_overwrite_fails",
    "Neps.Create.C128_folders_stay"
   ],
   "note": "Proved for every schedule in which the root directory is not deleted. False parts: a look at an existing directory that is not a run creates five subdirectories in it and does not raise the documented FileNotFoundError (C128_wrong_directory_fails); a look can make a restart with overwrite_working_directory=True fail and leave a directory no worker can join (C128_overwrite_fails)."
  },
  {
   "property": "C129",
   "status": "partial",
   "theorems": [
    "Verif.Space.C129_accepted",
    "Verif.Space.C129_rejected",
    "Verif.Space.C129_float",
    "Verif.Space.C129_categorical",
    "Verif.Space.C129_narrower",
    "Verif.Space.C129_rest",
    "Verif.Space.C129_integer_fails",
    "Verif.Space.C129_scores_fails",
    "Verif.Space.C129_own_confidence_fails"
   ],
   "note": "Floats and categoricals follow the confidence. Integers do not (the score of the inner float parameter is not changed), copies and PriorBand's scores do not, and the confidence given to a parameter by the user is overridden: proved as failures for every space."
  },
  {
   "property": "C13",
   "status": "proved",
   "theorems": [
    "Neps.Run.C13_total_bound",
    "Neps.Run.C13_one_worker",
    "Neps.Run.C13_limit_exceeded"
   ],
   "note": ""
  },
  {
   "property": "C130",
   "status": "partial",
   "theorems": [
    "Verif.Space.C130_default_first",
    "Verif.Space.C130_total",
    "Verif.Space.C130_source",
    "Verif.Space.C130_shares",
    "Verif.Space.C130_defaults_ignored",
    "Verif.Space.C130_partial_priors_fails"
   ],
   "note": "Proved except that the default configuration cannot be made if a parameter has no default (C130_partial_priors_fails)."
  },
  {
   "property": "C131",
   "status": "proved",
   "theorems": [
    "Neps.Run.C131_per_worker",
    "Neps.Run.C131_total",
    "Neps.Run.C131_all_through",
    "Neps.Run.C131_stopped_reached",
    "Neps.Run.C131_job_done"
   ],
   "note": "Bounds the steps of all workers together by a measure: each worker has an allowance of rounds (ten lost claims in a row are fatal), a global allowance pays for first claims, and a claim of a trial somebody already started on is paid for by the claim that made it stale. Locks that are never released are outside the model, see DESIGN.md."
  },
  {
   "property": "C132",
   "status": "partial",
   "theorems": [
    "Verif.Args.Info.C132_searchers",
    "Verif.Args.Info.C132_searchers_run",
    "Verif.Args.Info.C132_algorithms",
    "Verif.Args.Info.C132_from_algorithm",
    "Verif.Args.Info.C132_kwargs_partial",
    "Verif.Args.Info.C132_kwargs_package_partial",
    "Verif.Args.Info.C132_kwargs_fails",
    "Verif.Args.Info.C132_unknown_fails"
   ],
   "note": "The lists are right. The settings are those of the first file whose name begins with the argument: for asha, priorband and successive_halving they may be those of another searcher (C132_kwargs_fails), and beginnings of names are accepted (C132_unknown_fails); for the other nine searchers they are right for every order (C132_kwargs_package_partial)."
  },
  {
   "property": "C133",
   "status": "partial",
   "theorems": [
    "Verif.Sampling.C133_uniform",
    "Verif.Sampling.C133_sobol_partial",
    "Verif.Sampling.C133_border",
    "Verif.Sampling.C133_sobol_fails",
    "Verif.Sampling.C133_prior_fails",
    "Verif.Sampling.C133_mixture_fails",
    "Verif.Sampling.C133_mixture_partial"
   ],
   "note": "The uniform sampler is right for every type. Asked for integers, the Sobol sampler truncates its draws to zero before it translates them and always returns the lowest values (C133_sobol_fails), priors return only bounds (C133_prior_fails). A mixture over integer domains asks for integers of its own accord (C133_mixture_fails)."
  },
  {
   "property": "C134",
   "status": "partial",
   "theorems": [
    "Verif.Space.C134_equivalence",
    "Verif.Space.C134_meaning",
    "Verif.Space.C134_same_answers",
    "Verif.Space.C134_sample_partial",
    "Verif.Space.C134_weights",
    "Verif.Space.C134_integer_prior_fails",
    "Verif.Space.C134_copy_partial",
    "Verif.Space.C134_copy_fails"
   ],
   "note": "Equivalence, meaning and answers are proved in full. Two integer parameters declared with the defaults 3.4 and 3 are equal but sample different values around their defaults (C134_integer_prior_fails), because the unrounded default is kept inside; a parameter whose confidence was set later is not equal to its copy (C134_copy_partial says exactly when it is, C134_copy_fails is a witness)."
  },
  {
   "property": "C135",
   "status": "partial",
   "theorems": [
    "Neps.Run.C135_same_runs_partial",
    "Neps.Run.C135_sees_what_is_stored_partial",
    "Neps.Run.C135_nothing_lost_partial",
    "Neps.Run.C135_total_bound_partial",
    "Neps.Run.C135_worker_limit_partial",
    "Neps.Run.C135_budget_is_sum_partial",
    "Neps.Run.C135_lock_timeout_fails"
   ],
   "note": "Proved for all histories in which every lock is obtained: a simulation between workers with caches (every open and every sync is a separate step) and the workers of the other claims, and the consequences for C08, C10, C12 and C13. Missing because it is false: after a lock timeout during a claim the worker keeps a trial that says EVALUATING with the stored version, takes it for the stored trial, and can stop although the trial is PENDING (C135_lock_timeout_fails)."
  },
  {
   "property": "C136",
   "status": "partial",
   "theorems": [
    "Verif.Args.C136_object_used",
    "Verif.Args.C136_class_called",
    "Verif.Args.C136_other_class_rejected",
    "Verif.Args.C136_class_settings_fails",
    "Verif.Args.C136_class_space_file_fails"
   ],
   "note": "The last sentence is false: a class of the user gets neither the limit nor the settings for failed evaluations (C136_class_settings_fails), and the run raises if the space is a file (C136_class_space_file_fails). The rest is proved for all calls. Not modelled: whether the class accepts the arguments."
  },
  {
   "property": "C137",
   "status": "partial",
   "theorems": [
    "Neps.Budget.C137_told",
    "Neps.Budget.C137_limits_partial",
    "Neps.Budget.C137_all_charged",
    "Neps.Budget.C137_is_told",
    "Neps.Budget.C137_round_trip",
    "Neps.Budget.C137_shared_state_fails",
    "Neps.Budget.C137_other_limit_fails",
    "Neps.Budget.C137_used_evaluations_fails",
    "Neps.Budget.C137_unstorable_fails",
    "Neps.Budget.C137_two_workers_fails",
    "Neps.Budget.C137_failed_join"
   ],
   "note": "Proved for all histories: the optimizer is told the limits of the first neps.run on the directory and the sum of the charged costs, cannot change it, and every report is charged as long as what the optimizer keeps can be stored. The code falls short of the property: a restart with another limit is told the old one (and cost-aware Bayesian optimization then raises), the number of used evaluations is never counted, a kept state is never given back, an unstorable one empties the state file, and a worker may ask after the limit was exceeded by another one."
  },
  {
   "property": "C138",
   "status": "partial",
   "theorems": [
    "Neps.Locks.C138_exclusive",
    "Neps.Locks.C138_objective_without_locks",
    "Neps.Locks.C138_one_asks",
    "Neps.Locks.C138_released",
    "Neps.Locks.C138_no_deadlock_partial",
    "Neps.Locks.C138_all_finish_partial",
    "Neps.Locks.C138_step",
    "Neps.Locks.C138_looking_fails",
    "Neps.Locks.C138_slow_optimizer_fails"
   ],
   "note": "Proved for every schedule, except that an optimizer or hook that looks at the run while it is asked for a configuration waits for its own process (C138_looking_fails), and that a slow optimizer makes reports of other workers wait, up to their timeout (C138_slow_optimizer_fails)."
  },
  {
   "property": "C139",
   "status": "partial",
   "theorems": [
    "Verif.Gram.C139_product_partial",
    "Verif.Gram.C139_log_partial",
    "Verif.Gram.C139_sampler",
    "Verif.Gram.C139_distribution",
    "Verif.Gram.C139_text_fails",
    "Verif.Gram.C139_excluded_fails",
    "Verif.Gram.C139_root_fails",
    "Verif.Gram.C139_mixed_fails",
    "Verif.Gram.C139_object_fails"
   ],
   "note": "Proved for constraint functions that give a place for each argument and answer by the operations at the roots of the arguments, for all permitted trees. It fails (with witnesses) for functions that look at the texts the sampler gives them, for excluded trees (which get the probability of a neighbour), for roots that can be the none operation (raises), for operations only some of whose arguments can be the none operation, and for constraint objects (raises)."
  },
  {
   "property": "C14",
   "status": "proved",
   "theorems": [
    "Neps.Run.C14_cost_below_limit",
    "Neps.Run.C14_cost_below_limit_num",
    "Neps.Run.C14_nan_disables_limit"
   ],
   "note": ""
  },
  {
   "property": "C140",
   "status": "partial",
   "theorems": [
    "Verif.Args.C140_settings_partial",
    "Verif.Args.C140_defaults",
    "Verif.Args.C140_named_partial",
    "Verif.Args.C140_run_settings_partial",
    "Verif.Args.C140_accepted",
    "Verif.Args.C140_space",
    "Verif.Args.C140_random_search",
    "Verif.Args.C140_bayesian_optimization",
    "Verif.Args.C140_ifbo",
    "Verif.Args.C140_unknown_partial",
    "Verif.Args.C140_brackets",
    "Verif.Args.C140_named_names",
    "Verif.Args.C140_unknown_fails",
    "Verif.Args.C140_errors_fails",
    "Verif.Args.C140_model_settings_fails",
    "Verif.Args.C140_grid_search_fails"
   ],
   "note": "Proved for all classes, settings and spaces. Partial because of the code: random search, Bayesian optimization and ifBO drop the values for failed evaluations and the cost limit, MOBSTER and PriorBand ignore the settings of the model that their files offer, random search accepts misspelled settings, and grid search cannot be built at all."
  },
  {
   "property": "C141",
   "status": "partial",
   "theorems": [
    "Neps.Proc.C141_trial",
    "Neps.Proc.C141_state_partial",
    "Neps.Proc.C141_reported_partial",
    "Neps.Proc.C141_notified",
    "Neps.Proc.C141_once",
    "Neps.Proc.C141_only_reported",
    "Neps.Proc.C141_interrupt_fails",
    "Neps.Proc.C141_invalid_fails",
    "Neps.Proc.C141_nested_fails",
    "Neps.Proc.C141_outside_fails"
   ],
   "note": "The trial found and the notifications are right for all programs. The state found is wrong if an objective calls neps.run; an interrupted evaluation or an invalid result blocks all later runs of the process, each of which leaves one more trial that is stored as being evaluated; nested runs are refused after their trial was stored as being evaluated."
  },
  {
   "property": "C142",
   "status": "proved",
   "theorems": [
    "Verif.Arch.C142_arguments",
    "Verif.Arch.C142_unique",
    "Verif.Arch.C142_created",
    "Verif.Arch.C142_fit",
    "Verif.Arch.C142_name",
    "Verif.Arch.C142_first_only"
   ],
   "note": "For operations declared with a dictionary, as in all examples. Nested topologies are taken as built; see C159. Edges are taken as constructed; see C160 for the constructor of their default operation, which raises."
  },
  {
   "property": "C143",
   "status": "partial",
   "theorems": [
    "Verif.Args.C143_kept",
    "Verif.Args.C143_created",
    "Verif.Args.C143_state_machine_fails",
    "Verif.Args.C143_basic",
    "Verif.Args.C143_complete",
    "Verif.Args.C143_found"
   ],
   "note": "Proved except for --state-machine, which does nothing with an existing file (C143_state_machine_fails). A root directory named None counts as missing (hypothesis of C143_basic and C143_complete)."
  },
  {
   "property": "C144",
   "status": "partial",
   "theorems": [
    "Neps.Seed.C144_atomic",
    "Neps.Seed.C144_runs",
    "Neps.Seed.C144_seen",
    "Neps.Seed.C144_snapshot_fails",
    "Neps.Seed.C144_histories",
    "Neps.Seed.C144_asked_history",
    "Neps.Seed.C144_continuation",
    "Neps.Seed.C144_numbering",
    "Neps.Seed.C144_quota",
    "Neps.Seed.C144_best",
    "Neps.Seed.C144_hb_sampling_partial",
    "Neps.Seed.C144_ahb_sampling_partial"
   ],
   "note": "What the optimizer is asked with need not be a snapshot (C144_snapshot_fails). Sampling succeeds is proved if no failed evaluation has been read or they are handled by a loss value; with errors that are ignored or raise it is false (C53)."
  },
  {
   "property": "C145",
   "status": "partial",
   "theorems": [
    "Verif.Bo.C145_plain",
    "Verif.Bo.C145_prior",
    "Verif.Bo.C145_cost",
    "Verif.Bo.C145_prior_and_cost_partial",
    "Verif.Bo.C145_prior_and_cost_fails",
    "Verif.Bo.C145_likelier_not_worse",
    "Verif.Bo.C145_cheaper_not_worse"
   ],
   "note": "Without weights, with a prior alone and with costs alone the value of a candidate is the joint value of the candidate and each pending configuration, once. With a prior and costs together it holds only without pending configurations: with p pending configurations the nested weighting yields p+1 numbers for one candidate (C145_prior_and_cost_fails), which botorch rejects. The base acquisition function and its reductions are parameters."
  },
  {
   "property": "C146",
   "status": "proved",
   "theorems": [
    "Verif.Bo.C146_columns",
    "Verif.Bo.C146_closer_more_similar",
    "Verif.Bo.C146_itself",
    "Verif.Bo.C146_symmetric",
    "Verif.Bo.C146_choices_unordered",
    "Verif.Bo.C146_parameter_order"
   ],
   "note": "The kernels of gpytorch and botorch are their documented formulas over real numbers (squared exponential with one length scale per column; output scale times the exponential of the negated mean disagreement); the fit and the posterior are not modelled."
  },
  {
   "property": "C147",
   "status": "proved",
   "theorems": [
    "Neps.Run.C147_last_meets_no_conflict",
    "Neps.Run.C147_no_trial_lost",
    "Neps.Run.C147_job_done"
   ],
   "note": "Over the worker transition system; kills outside the creation of a trial are allowed in the first theorem, all kills in the second, none in the third. Liveness from C131."
  },
  {
   "property": "C148",
   "status": "proved",
   "theorems": [
    "Neps.Seed.C148_prefix",
    "Neps.Seed.C148_no_point_twice",
    "Neps.Seed.C148_stopped_complete",
    "Neps.Seed.C148_whole_grid",
    "Neps.Seed.C148_unseeded_fails"
   ],
   "note": "With a seed. C148_unseeded_fails: without one (the default) every ask shuffles anew, and a run can evaluate a point twice and miss another."
  },
  {
   "property": "C149",
   "status": "partial",
   "theorems": [
    "Neps.Seed.C149_random_search",
    "Neps.Seed.C149_bayesian",
    "Neps.Seed.C149_hyperband_partial",
    "Neps.Seed.C149_async_hyperband_partial",
    "Neps.Seed.C149_successive_halving_partial",
    "Neps.Seed.C149_asha_partial",
    "Neps.Seed.C149_ignore_errors_fails"
   ],
   "note": "Random search, and Bayesian optimization if its model always makes a proposal: proved. The multi-fidelity optimizers: if no evaluation fails, or failures have a loss value; ASHA without early stopping. C149_ignore_errors_fails: with ignore_errors one failed evaluation ends a run with successive halving after two of ten evaluations."
  },
  {
   "property": "C15",
   "status": "proved",
   "theorems": [
    "Neps.Run.C15_ignore",
    "Neps.Run.C15_ignore_run",
    "Neps.Run.C15_raise_any",
    "Neps.Run.C15_raise_any_run",
    "Neps.Run.C15_stop_returns",
    "Neps.Run.C15_worker_policies",
    "Neps.Run.C15_launch"
   ],
   "note": ""
  },
  {
   "property": "C150",
   "status": "partial",
   "theorems": [
    "Neps.Locks.C150_traceback",
    "Neps.Locks.C150_message_partial",
    "Neps.Locks.C150_message",
    "Neps.Locks.C150_other",
    "Neps.Locks.C150_wrong_lock_fails",
    "Neps.Locks.C150_own_lock_fails"
   ],
   "note": "The handler of FileLocker.lock also sees the exceptions of locks taken inside the with statement. A worker that samples has the locks of the optimizer state and of the seed, so that a timeout on a trial is reported as one on the optimizer state (C150_wrong_lock_fails), and a LockException of the optimizer itself as one of NePS (C150_own_lock_fails). Proved: for every other operation the message is right; the traceback always shows the right lock at the first exception."
  },
  {
   "property": "C151",
   "status": "proved",
   "theorems": [
    "Neps.Locks.C151_waiting",
    "Neps.Locks.C151_import_fails",
    "Neps.Locks.C151_used",
    "Neps.Locks.C151_separate"
   ],
   "note": "float() on texts is an argument of the model."
  },
  {
   "property": "C152",
   "status": "partial",
   "theorems": [
    "Neps.Cli.C152_order",
    "Neps.Cli.C152_crashed_partial",
    "Neps.Cli.C152_no_run",
    "Neps.Cli.C152_killed_fails"
   ],
   "note": "A worker that is killed between storing the trial and appending the error leaves a crashed trial that neps errors does not show (C152_killed_fails); while no worker is inside report_trial_evaluation the command shows every crashed trial."
  },
  {
   "property": "C153",
   "status": "partial",
   "theorems": [
    "Neps.Plot.C153_curves",
    "Neps.Plot.C153_order",
    "Neps.Plot.C153_footnote",
    "Neps.Plot.C153_space_partial",
    "Neps.Plot.C153_single_fails",
    "Neps.Plot.C153_axis_fails",
    "Neps.Plot.C153_ids_fails"
   ],
   "note": "Proved for the flat plot, the order, the footnote and the lines in space, with levels as x. The code differs from the property in three places, each with a witness: single evaluations are drawn at 0 in space; x is the number of the level while the axis has the range of the fidelities; runs of other optimizers (ids without a level) raise an exception."
  },
  {
   "property": "C154",
   "status": "partial",
   "theorems": [
    "Neps.Seed.Files.C154_stored",
    "Neps.Seed.Files.C154_restored_partial",
    "Neps.Seed.Files.C154_cpu",
    "Neps.Seed.Files.C154_equal_partial",
    "Neps.Seed.Files.C154_killed_partial",
    "Neps.Seed.Files.C154_devices_fails",
    "Neps.Seed.Files.C154_stale_fails",
    "Neps.Seed.Files.C154_killed_fails",
    "Neps.Seed.Files.C154_equal_fails"
   ],
   "note": "Proved down to the bytes for python, numpy and torch on the CPU on all machines, and for CUDA between machines with the same number of devices. False of the code, with witnesses: a machine with fewer devices than the one that stored raises, a machine without CUDA leaves an old file of the devices, a kill between two files mixes words and cached numbers, and snapshots with different numbers of devices can be equal."
  },
  {
   "property": "C155",
   "status": "partial",
   "theorems": [
    "Verif.Bo.Pool.C155_batch",
    "Verif.Bo.Pool.C155_sample",
    "Verif.Bo.Pool.C155_parents",
    "Verif.Bo.Pool.C155_pool",
    "Verif.Bo.Pool.C155_size",
    "Verif.Bo.Pool.C155_full",
    "Verif.Bo.Pool.C155_duplicates_fails",
    "Verif.Bo.Pool.C155_refused_fails",
    "Verif.Bo.Pool.C155_part_fails",
    "Verif.Bo.Pool.C155_none_fails"
   ],
   "note": "Proved for all pools, batches and outcomes, except that mutants are not different: the hash that is to detect repetitions is that of a dictionary view, i.e. its address, so that repeated mutants are accepted (C155_duplicates_fails) and new ones can be refused (C155_refused_fails). A part above one makes the pool too large, and a batch of none is everything."
  },
  {
   "property": "C156",
   "status": "partial",
   "theorems": [
    "Verif.Bo.Acq.C156_improvement",
    "Verif.Bo.Acq.C156_log_partial",
    "Verif.Bo.Acq.C156_log_fails",
    "Verif.Bo.Acq.C156_augmented",
    "Verif.Bo.Acq.C156_order",
    "Verif.Bo.Acq.C156_best",
    "Verif.Bo.Acq.C156_posterior_partial",
    "Verif.Bo.Acq.C156_posterior_fails",
    "Verif.Bo.Acq.C156_certain_fails",
    "Verif.Bo.Acq.C156_bound",
    "Verif.Bo.Acq.C156_beta_fails"
   ],
   "note": "The plain and augmented criteria are proved equal to the expectation for every model (Gaussian integral). log_fails: log_ei with in_fill='best', the registered LogEI, raises on every evaluation (torch.exp of a Python float). posterior_fails: the incumbent is the loss observed where the posterior mean is least, not that mean. certain_fails: zero variance with the mean at the target raises. beta_fails: list | np.array is a TypeError, so beta cannot be updated."
  },
  {
   "property": "C157",
   "status": "partial",
   "theorems": [
    "Verif.Bo.Weigh.C157_prefers_partial",
    "Verif.Bo.Weigh.C157_prefers_log_partial",
    "Verif.Bo.Weigh.C157_better",
    "Verif.Bo.Weigh.C157_better_log",
    "Verif.Bo.Weigh.C157_fades",
    "Verif.Bo.Weigh.C157_fades_log_partial",
    "Verif.Bo.Weigh.C157_count",
    "Verif.Bo.Weigh.C157_count_fidelity",
    "Verif.Bo.Weigh.C157_one_fails",
    "Verif.Bo.Weigh.C157_negative_fails",
    "Verif.Bo.Weigh.C157_log_one_fails"
   ],
   "note": "Proved for densities (or log-densities) other than exactly one; decay_t > 0. one_fails, log_one_fails: a (log-)density of exactly one is left unweighted, in log mode even without the logarithm, and reverses the order. negative_fails: negative acquisition values reverse the preference."
  },
  {
   "property": "C158",
   "status": "partial",
   "theorems": [
    "Verif.Arch.Edge.C158_private_partial",
    "Verif.Arch.Edge.C158_written",
    "Verif.Arch.Edge.C158_shared_partial",
    "Verif.Arch.Edge.C158_removed_partial",
    "Verif.Arch.Edge.C158_copied_partial",
    "Verif.Arch.Edge.C158_op_partial",
    "Verif.Arch.Edge.C158_refused",
    "Verif.Arch.Edge.C158_update_fails",
    "Verif.Arch.Edge.C158_both_fails",
    "Verif.Arch.Edge.C158_internal_fails",
    "Verif.Arch.Edge.C158_half_fails"
   ],
   "note": "Proved by an invariant over all histories without update from another edge. update_fails: update with an edge takes over its dictionaries, so private items become common. both_fails: a name can become private and shared in one edge; edge.key and to_dict() then disagree and it cannot be set. internal_fails: remove accepts internal names and blocks the edge. half_fails: update with a refused item keeps those before it. Edges are taken as constructed; see C160 for the constructor of their default operation, which raises."
  },
  {
   "property": "C159",
   "status": "partial",
   "theorems": [
    "Verif.Arch.Scope.C159_flat_partial",
    "Verif.Arch.Scope.C159_nested_fails",
    "Verif.Arch.Scope.C159_compile_fails",
    "Verif.Arch.Scope.C159_built_iff_fails"
   ],
   "note": "Proved for topologies whose operations are no graphs. Refuted for all nested topologies: listing the child graphs flattens each graph into its node numbers, and sorting these by name raises an exception, so exactly the architectures with at most one level of topologies can be built (C159_built_iff_fails). C102, C109, C110 and C142 describe calling, composing and flattening without this exception; they apply to nested graphs only for topologies that do not set a scope. Edges are taken as constructed; see C160 for the constructor of their default operation, which raises."
  },
  {
   "property": "C16",
   "status": "partial",
   "theorems": [
    "Neps.Run.C16_life_cycle_partial",
    "Neps.Run.C16_moves_forward_partial",
    "Neps.Run.C16_life_cycle_fails"
   ],
   "note": "Refuted for concurrent workers (same race as C07: EVALUATING with a report); proved for every schedule without such a claim."
  },
  {
   "property": "C160",
   "status": "partial",
   "theorems": [
    "Verif.Arch.Prim.C160_shape_partial",
    "Verif.Arch.Prim.C160_exchange_partial",
    "Verif.Arch.Prim.C160_sequence_partial",
    "Verif.Arch.Prim.C160_concat",
    "Verif.Arch.Prim.C160_construct_partial",
    "Verif.Arch.Prim.C160_construct_fails",
    "Verif.Arch.Prim.C160_edge_fails",
    "Verif.Arch.Prim.C160_pointwise_fails",
    "Verif.Arch.Prim.C160_kernel_fails",
    "Verif.Arch.Prim.C160_maxpool_fails",
    "Verif.Arch.Prim.C160_channels_fails",
    "Verif.Arch.Prim.C160_block_fails",
    "Verif.Arch.Prim.C160_zero_fails"
   ],
   "note": "Construction is refuted for all operations: their constructors pass locals() to nn.Module.__init__, which refuses positional arguments (C160_construct_fails); only derived classes that set call_super_init and have a further base accepting the argument can be constructed. The shapes of forward are proved for fitting arguments and refuted for kernel size 1 with stride 2, kernel sizes other than 1 and 3, and changes of channels that the operation ignores. The size formula of convolution and pooling and the behaviour of nn.Module.__init__ are those documented by PyTorch (>= 2.0.1). Since the data of every edge contains an identity operation, no graph with an edge can be built at all (C160_edge_fails)."
  },
  {
   "property": "C161",
   "status": "partial",
   "theorems": [
    "Verif.Ifbo.Download.C161_complete_partial",
    "Verif.Ifbo.Download.C161_raises_partial",
    "Verif.Ifbo.Download.C161_alone_partial",
    "Verif.Ifbo.Download.C161_never_repaired_fails",
    "Verif.Ifbo.Download.C161_kill_fails",
    "Verif.Ifbo.Download.C161_race_fails",
    "Verif.Ifbo.Download.C161_both_fails",
    "Verif.Ifbo.Download.C161_version_fails"
   ],
   "note": "Proved for orderly executions: no process starts while another one is downloading, and none is killed while unpacking (or while downloading next to the model of another version). Refuted otherwise: after a kill while unpacking every later call returns the damaged model and it is never repaired; a second process gets a half-unpacked model; two downloads at the same time make one of them raise; the model of another version hides an unfinished download."
  },
  {
   "property": "C162",
   "status": "partial",
   "theorems": [
    "Neps.Overwrite.C162_nothing_old_partial",
    "Neps.Overwrite.C162_own_result",
    "Neps.Overwrite.C162_starts_empty",
    "Neps.Overwrite.C162_stored_partial",
    "Neps.Overwrite.C162_samples_partial",
    "Neps.Overwrite.C162_blocked",
    "Neps.Overwrite.C162_search_space_partial",
    "Neps.Overwrite.C162_stale_worker_fails",
    "Neps.Overwrite.C162_search_space_fails",
    "Neps.Overwrite.C162_parallel_fails"
   ],
   "note": "Proved for every history: after an overwrite nothing of the old run is stored again and a stored result belongs to the stored configuration, because the version in the memory of an old worker never matches. Proved when nobody evaluates at the moment of an overwrite: reports are stored and workers can sample. Refuted otherwise: an old worker that ends its evaluation raises, but taking the lock has already made the directory of its trial again; this directory has no trial, so every worker of the new run raises until the run is overwritten again. Also refuted: an old worker without a trial goes on in the new run with the old search space, and workers in parallel that all have the flag (the documentation warns about this one) delete each other's results."
  },
  {
   "property": "C163",
   "status": "partial",
   "theorems": [
    "Verif.Space.SearchSpace.C163_unknown_refused",
    "Verif.Space.SearchSpace.C163_illegal_refused",
    "Verif.Space.SearchSpace.C163_promoted_legal",
    "Verif.Space.SearchSpace.C163_legal_continues",
    "Verif.Space.SearchSpace.C163_complete_partial",
    "Verif.Space.SearchSpace.C163_new_parameter_fails"
   ],
   "note": "Proved for all search spaces and histories; False for a new parameter: C163_new_parameter_fails proves that every promoted configuration then has None for it. Random search does not read stored configurations at all, and Bayesian optimisation encodes them without checking bounds; neither is part of the statement. Architecture parameters are not part of the model."
  },
  {
   "property": "C164",
   "status": "proved",
   "theorems": [
    "Neps.MF.C164_distribution",
    "Neps.MF.C164_bracket_exists",
    "Neps.MF.C164_share",
    "Neps.MF.C164_equal_budget",
    "Neps.MF.C164_antitone"
   ],
   "note": "Rational arithmetic instead of floating-point numbers; the drawn number is given. That the budget of a rung is eta^s times the smallest is part of the model of C25, up to rounding."
  },
  {
   "property": "C165",
   "status": "partial",
   "theorems": [
    "Verif.Ifbo.Cache.C165_right_model",
    "Verif.Ifbo.Cache.C165_same_object",
    "Verif.Ifbo.Cache.C165_loaded_once",
    "Verif.Ifbo.Cache.C165_recovers",
    "Verif.Ifbo.Cache.C165_device_partial",
    "Verif.Ifbo.Cache.C165_device_fails",
    "Verif.Ifbo.Cache.C165_held_fails"
   ],
   "note": "The device is part of the statement only for the first call: the key of the cache does not have it (C165_device_fails). With the default directory the files are looked for before the cache is (C165_held_fails). Downloading and loading are given with the call; threads are not modelled."
  },
  {
   "property": "C166",
   "status": "partial",
   "theorems": [
    "Verif.Ifbo.C166_scores_partial",
    "Verif.Ifbo.C166_single_fails",
    "Verif.Ifbo.C166_fantasies",
    "Verif.Ifbo.C166_ask_partial",
    "Verif.Ifbo.C166_one_candidate_fails",
    "Verif.Ifbo.C166_first_configuration_fails"
   ],
   "note": "Proved for every number of candidates except one, and for every number of pending trials. Refuted for exactly one candidate: squeeze() leaves a score without dimensions and indexing it raises; this happens for example after the first evaluation of a run whose initial design is one configuration. The shapes that the package ifbo returns and the behaviour of torch on shapes are assumptions, stated in ShapeModel.lean; C87 and C88 are about a model of ask without shapes, which agrees with this one unless there is exactly one candidate (C166_ask_partial)."
  },
  {
   "property": "C17",
   "status": "partial",
   "theorems": [
    "Neps.C17_write_read",
    "Neps.C17_recovered_equal",
    "Neps.C17_write_history_read",
    "Neps.C17_dropped_report_fails"
   ],
   "note": "Proved for every history of writes that does not drop a report (exceptions come back with their message but not their class); refuted when a report is dropped, because the report file is never deleted."
  },
  {
   "property": "C18",
   "status": "partial",
   "theorems": [
    "Neps.C18_listed_ids_partial",
    "Neps.C18_id_survives_iff",
    "Neps.C18_generated_ids",
    "Neps.C18_infix_fails"
   ],
   "note": "Proved exactly for ids that do not contain 'config_' (all ids of the bundled optimizers); refuted otherwise."
  },
  {
   "property": "C19",
   "status": "proved",
   "theorems": [
    "Neps.C19_number_result",
    "Neps.C19_number_error",
    "Neps.C19_mapping_without_loss",
    "Neps.C19_mapping_result",
    "Neps.C19_mapping_accepted_iff"
   ],
   "note": ""
  },
  {
   "property": "C20",
   "status": "partial",
   "theorems": [
    "Neps.C20_exception_is_recorded",
    "Neps.C20_result_is_recorded",
    "Neps.Run.C20_worker_continues",
    "Neps.C20_malformed_result_fails"
   ],
   "note": "Proved for every exception and every interpretable result, including that the worker goes on; refuted for results without loss, which raise out of the evaluation."
  },
  {
   "property": "C21",
   "status": "proved",
   "theorems": [
    "Neps.Opt.C21_grid_complete",
    "Neps.Opt.C21_grid_unseeded_fails"
   ],
   "note": "Every ask with the same seed shuffles the same way. With seed None, the default, each ask shuffles anew; C21_grid_unseeded_fails shows that points are then repeated and others missed."
  },
  {
   "property": "C22",
   "status": "proved",
   "theorems": [
    "Neps.MF.C22_mf_id_fresh",
    "Neps.MF.C22_id_text",
    "Neps.Opt.C22_grid_id_fresh",
    "Neps.Opt.C22_random_id_fresh"
   ],
   "note": "Histories of asks and reports of successive halving, ASHA, hyperband, asynchronous hyperband, grid and random search."
  },
  {
   "property": "C23",
   "status": "partial",
   "theorems": [
    "Neps.MF.C23_sync_promotion",
    "Neps.MF.C23_sh_promotion",
    "Neps.MF.C23_sync_best",
    "Neps.MF.C23_sync_quota",
    "Neps.MF.C23_asha_promotion_partial",
    "Neps.MF.C23_ahb_promotion_partial",
    "Neps.MF.C23_async_eligible",
    "Neps.MF.C23_asha_promotes_failed_fails"
   ],
   "note": "The synchronous part is complete. Asynchronous: with ignore_errors a rung whose configurations all failed promotes a failed one (shown by the _fails theorem); the _partial theorems name that exception."
  },
  {
   "property": "C24",
   "status": "proved",
   "theorems": [
    "Neps.MF.C24_promotion_continues",
    "Neps.MF.C24_new_configuration"
   ],
   "note": "For all four multi-fidelity optimizers."
  },
  {
   "property": "C25",
   "status": "proved",
   "theorems": [
    "Neps.MF.C25_rung_budgets",
    "Neps.MF.C25_rung_budgets_int"
   ],
   "note": "Over the real numbers; rounding of the logarithms is not modelled. For integer fidelities the factor eta holds up to rounding down."
  },
  {
   "property": "C26",
   "status": "proved",
   "theorems": [
    "Neps.MF.C26_bracket_capacities",
    "Neps.MF.C26_code_brackets"
   ],
   "note": "Over the real numbers; rounding of the logarithms is not modelled."
  },
  {
   "property": "C27",
   "status": "proved",
   "theorems": [
    "Neps.MF.C27_bracket_finished"
   ],
   "note": "For the occupations that occur in histories of hyperband."
  },
  {
   "property": "C28",
   "status": "proved",
   "theorems": [
    "Neps.MF.C28_observe_order",
    "Neps.MF.C28_ask_order"
   ],
   "note": ""
  },
  {
   "property": "C29",
   "status": "partial",
   "theorems": [
    "Verif.Space.C29_cast_in_bounds_partial",
    "Verif.Space.C29_cast_in_bounds_iff",
    "Verif.Space.C29_log_lift_fails",
    "Verif.Space.C29_translate_in_bounds_partial",
    "Verif.Space.C29_translate_rejects",
    "Verif.Space.C29_bin_value"
   ],
   "note": "Exact reals. Missing: false exactly for the pairs where the target's bounds equal the source's log bounds (C29_cast_in_bounds_iff characterises them): there the cast applies exp instead of log and leaves the target."
  },
  {
   "property": "C30",
   "status": "partial",
   "theorems": [
    "Verif.Space.C30_float_round_trip",
    "Verif.Space.C30_unit_round_trip",
    "Verif.Space.C30_integer_round_trip",
    "Verif.Space.C30_indices_round_trip",
    "Verif.Space.C30_bin_round_trip",
    "Verif.Space.C30_minmax_round_trip_partial",
    "Verif.Space.C30_minmax_unit_partial",
    "Verif.Space.C30_log_integer_fails",
    "Verif.Space.C30_single_value_fails",
    "Verif.Space.C30_minmax_log_lift_fails"
   ],
   "note": "Exact reals. Missing: false for log integer domains (9 in [1,10] comes back as 10), for domains with a single value (NaN) and, through the normaliser, for the domains of C29_log_lift_fails."
  },
  {
   "property": "C31",
   "status": "partial",
   "theorems": [
    "Verif.Space.C31_integer_round_trip",
    "Verif.Space.C31_integer_injective",
    "Verif.Space.C31_unknown_rejected",
    "Verif.Space.C31_integer_decode_total",
    "Verif.Space.C31_unit_round_trip_partial",
    "Verif.Space.C31_unit_injective",
    "Verif.Space.C31_single_choice_fails"
   ],
   "note": "Missing: the unit encoding of a single choice is NaN (C31_single_choice_fails); everything else is proved for every list of distinct choices."
  },
  {
   "property": "C32",
   "status": "partial",
   "theorems": [
    "Verif.Space.C32_round_trip",
    "Verif.Space.C32_column_order",
    "Verif.Space.C32_alphabetical",
    "Verif.Space.C32_default_round_trip_partial",
    "Verif.Space.C32_empty_encoder_fails"
   ],
   "note": "Missing: an encoder without any name decodes every tensor to no configurations (C32_empty_encoder_fails); for the default encoder log integers and the domains of C29_log_lift_fails are excluded."
  },
  {
   "property": "C33",
   "status": "partial",
   "theorems": [
    "Verif.Space.C33_float_sample",
    "Verif.Space.C33_float_neighbours",
    "Verif.Space.C33_float_neighbours_progress",
    "Verif.Space.C33_float_mutate",
    "Verif.Space.C33_float_crossover",
    "Verif.Space.C33_float_grid",
    "Verif.Space.C33_int_sample",
    "Verif.Space.C33_int_sample_total",
    "Verif.Space.C33_int_neighbours",
    "Verif.Space.C33_int_mutate",
    "Verif.Space.C33_int_crossover",
    "Verif.Space.C33_int_grid",
    "Verif.Space.C33_cat_sample",
    "Verif.Space.C33_cat_sample_total",
    "Verif.Space.C33_cat_neighbours",
    "Verif.Space.C33_cat_mutate",
    "Verif.Space.C33_cat_crossover",
    "Verif.Space.C33_simple_mutation_fails"
   ],
   "note": "Bounds hold for every operation that returns. Missing: the 'simple' mutation without a parent never returns (C33_simple_mutation_fails)."
  },
  {
   "property": "C34",
   "status": "partial",
   "theorems": [
    "Verif.Space.C34_float_set_value",
    "Verif.Space.C34_int_set_value",
    "Verif.Space.C34_const_set_value",
    "Verif.Space.C34_cat_set_value_partial",
    "Verif.Space.C34_categorical_fails"
   ],
   "note": "Missing: a categorical parameter raises but has stored the invalid value already (C34_categorical_fails)."
  },
  {
   "property": "C35",
   "status": "partial",
   "theorems": [
    "Verif.Space.SearchSpace.C35_grid_mem",
    "Verif.Space.SearchSpace.C35_grid_values",
    "Verif.Space.SearchSpace.C35_grid_legal",
    "Verif.Space.SearchSpace.C35_grid_length",
    "Verif.Space.SearchSpace.C35_grid_once_partial",
    "Verif.Space.SearchSpace.C35_duplicates_fails"
   ],
   "note": "The grid is the full product of the per-parameter values, all legal, with the expected number of entries. Entries are distinct if every integer parameter is linear and has at least as many values as grid points; otherwise the code keeps duplicates: the de-duplicated list is computed but not used (C35_duplicates_fails, for every space with a narrower integer parameter)."
  },
  {
   "property": "C36",
   "status": "proved",
   "theorems": [
    "Verif.Args.C36_precedence",
    "Verif.Args.C36_complete"
   ],
   "note": "Every setting of an accepted call is the explicit value, else the YAML value, else the default; searcher keyword arguments key by key; a call is accepted iff its essential settings are present, else it raises."
  },
  {
   "property": "C37",
   "status": "partial",
   "theorems": [
    "Verif.Args.C37_leaf_names",
    "Verif.Args.C37_leaf_sound",
    "Verif.Args.C37_leaf_complete_partial",
    "Verif.Args.C37_special",
    "Verif.Args.C37_special_complete_partial",
    "Verif.Args.C37_duplicate_fails",
    "Verif.Args.C37_null_overrides_fails"
   ],
   "note": "Nothing else appears for every document. Completeness needs the setting's key to occur once: with duplicate keys at different depths the last one wins (C37_duplicate_fails), and a later null special key discards an earlier value (C37_null_overrides_fails)."
  },
  {
   "property": "C38",
   "status": "proved",
   "theorems": [
    "Verif.Args.C38_default",
    "Verif.Args.C38_default_total",
    "Verif.Args.C38_run_default",
    "Verif.Args.C38_kwargs",
    "Verif.Args.C38_named",
    "Verif.Args.C38_dict",
    "Verif.Args.C38_own_file",
    "Verif.Args.C38_own_file_name",
    "Verif.Args.C38_error_settings"
   ],
   "note": "The decision table, the arguments of the chosen searcher and the call of neps.run."
  },
  {
   "property": "C39",
   "status": "partial",
   "theorems": [
    "Verif.Args.C39_describes",
    "Verif.Args.C39_kind",
    "Verif.Args.C39_kind_unique",
    "Verif.Args.C39_rejected",
    "Verif.Args.C39_scientific",
    "Verif.Args.C39_space",
    "Verif.Args.C39_mixed_bounds",
    "Verif.Args.C39_plus_exponent_fails"
   ],
   "note": "Exact characterisation of accepted descriptions and of the parameter they give. Scientific notation with a plus sign (1e+3) is not recognised (C39_plus_exponent_fails)."
  },
  {
   "property": "C40",
   "status": "partial",
   "theorems": [
    "Neps.Status.C40_counts_partial",
    "Neps.Status.C40_best",
    "Neps.Status.C40_succeeds",
    "Neps.Status.C40_pending_fails",
    "Neps.Status.C40_info_dict_fails",
    "Neps.Status.C40_run_partial"
   ],
   "note": "Best loss, errors and evaluated counts proved for all trial sets and at every point of every multi-worker execution; refuted: the pending counts are always 0, and an accepted result with a non-dict info_dict makes every summary raise."
  },
  {
   "property": "C41",
   "status": "partial",
   "theorems": [
    "Neps.Run.C41_one_run_partial",
    "Neps.Run.C41_second_run_fails"
   ],
   "note": "Proved for every trial and every sequence of calls within one run; refuted for a second run in the same process (the cache is keyed by trial id only)."
  },
  {
   "property": "C42",
   "status": "partial",
   "theorems": [
    "Verif.PriorBand.C42_distribution",
    "Verif.PriorBand.C42_inactive",
    "Verif.PriorBand.C42_random_share",
    "Verif.PriorBand.C42_random_antitone",
    "Verif.PriorBand.C42_constant",
    "Verif.PriorBand.C42_decay",
    "Verif.PriorBand.C42_dynamic",
    "Verif.PriorBand.C42_top",
    "Verif.PriorBand.C42_defined",
    "Verif.PriorBand.C42_linear_fails",
    "Verif.PriorBand.C42_base_rung_fails",
    "Verif.PriorBand.C42_zero_scores_fails"
   ],
   "note": "Whenever weights are computed they are a distribution, and each scheme's formula is proved. Missing from the full statement: the weights are not always computed. Linear weights with an early stopping rate above zero index past the end of their table, and scores that are all zero give NaN (the _fails theorems)."
  },
  {
   "property": "C43",
   "status": "proved",
   "theorems": [
    "Verif.Sampling.C43_all_corners",
    "Verif.Sampling.C43_some_corners",
    "Verif.Sampling.C43_any_corners",
    "Verif.Sampling.C43_shape",
    "Verif.Sampling.C43_wrong_length"
   ],
   "note": "Integers of the bit masks are unbounded in the model (32 bits in the code)."
  },
  {
   "property": "C44",
   "status": "partial",
   "theorems": [
    "Verif.Ifbo.C44_data",
    "Verif.Ifbo.C44_range_partial",
    "Verif.Ifbo.C44_range_fails",
    "Verif.Ifbo.C44_crash_fails",
    "Verif.Ifbo.C44_threshold",
    "Verif.Ifbo.C88_float_ask",
    "Verif.Ifbo.C88_int_predecessor_fails"
   ],
   "note": "Proved: every trial gives one row with its configuration and one minus its loss; with results for all trials, a loss outside [0,1] is rejected and only such losses are. False of the code: as soon as one trial has no result (or a NaN loss), NaN hides every loss out of range; a crashed trial counts as loss 0, the best possible score, strictly better than every successful trial with a positive loss, and lifts the threshold of improvement to 1, which no candidate exceeds. The predecessor exists for float fidelities (C88_float_ask) but not for integer fidelities with many steps (C88_int_predecessor_fails)."
  },
  {
   "property": "C45",
   "status": "partial",
   "theorems": [
    "Neps.Seed.C45_proposals_stored",
    "Neps.Seed.C45_trials_are_proposals",
    "Neps.Seed.C45_resume_partial",
    "Neps.Seed.C45_reproducible_partial",
    "Neps.Seed.C45_random_search",
    "Neps.Seed.C45_multi_fidelity",
    "Neps.Seed.C45_seeded_grid",
    "Neps.Seed.C45_one_process_partial",
    "Neps.Seed.C45_killed_sampling_fails",
    "Neps.Seed.C45_unseeded_grid_fails",
    "Neps.Seed.C45_initial_design_fails",
    "Neps.Seed.C45_interleave_fails"
   ],
   "note": "Proved for random search, seeded grid search and the multi-fidelity optimizers without interleaving, for every schedule without a kill between storing a trial and storing the generators. False for unseeded grid search, initial designs (kept in the process), random interleaving (unseeded coin) and such kills: see the _fails theorems."
  },
  {
   "property": "C46",
   "status": "partial",
   "theorems": [
    "Neps.Create.C46_existing_run",
    "Neps.Create.C46_new_run",
    "Neps.Create.C46_no_info",
    "Neps.Create.C46_info_is_permanent",
    "Neps.Create.C46_one_info",
    "Neps.Create.C46_late_caller_partial",
    "Neps.Create.C46_same_info_never_refused",
    "Neps.Create.C46_restart_partial",
    "Neps.Create.C46_same_arguments_partial",
    "Neps.Create.C46_racing_infos_fails",
    "Neps.Create.C46_concurrent_start_fails",
    "Neps.Create.C46_empty_directory_fails",
    "Neps.Create.C46_killed_write_fails",
    "Neps.Create.C46_tuple_fails",
    "Neps.Create.C46_unwritable_info_fails"
   ],
   "note": "Proved for calls that nobody disturbs, and over all schedules with kills: the stored info never changes, all members share it, late callers join only with the same info, equal infos are never refused. False, with proved counterexamples: racing creators with different infos both succeed; a process that starts while another one is creating the run raises FileNotFoundError; an existing directory without info (made by the user, or left by a kill) can never be used; a kill inside a first write makes the run unusable; infos with tuples or NaN are refused on resumption; an info that YAML cannot write leaves an unusable directory."
  },
  {
   "property": "C47",
   "status": "partial",
   "theorems": [
    "Neps.Run.C47_slot_partial",
    "Neps.Run.C47_slot_after_malformed_fails"
   ],
   "note": "Refuted after a malformed result (no try/finally around the yield); proved for all sequences of well-formed results and exceptions."
  },
  {
   "property": "C48",
   "status": "partial",
   "theorems": [
    "Neps.Run.C48_lost_claim_partial",
    "Neps.Run.C48_lost_claim_fails"
   ],
   "note": "Refuted for a worker's first claim (unbound local variable); proved for workers that have claimed a trial before."
  },
  {
   "property": "C49",
   "status": "partial",
   "theorems": [
    "Neps.Run.C49_restart_partial",
    "Neps.Run.C49_restart_fails"
   ],
   "note": "Refuted for the default settings (a killed worker's trial stays in progress and is counted); proved with continue_until_max_evaluation_completed."
  },
  {
   "property": "C50",
   "status": "proved",
   "theorems": [
    "Neps.C50_error_log_roundtrip"
   ],
   "note": "The JSON text format is any newline-free injective encoder."
  },
  {
   "property": "C51",
   "status": "partial",
   "theorems": [
    "Neps.C51_torn_write_partial",
    "Neps.C51_torn_write_fails"
   ],
   "note": "Refuted between the state file and the report file; proved that every field is the old or the new one at every crash point."
  },
  {
   "property": "C52",
   "status": "partial",
   "theorems": [
    "Neps.C52_unstorable_result_fails",
    "Neps.C52_uncopyable_exception_fails",
    "Neps.C17_write_read"
   ],
   "note": "Refuted in general (for every trial and directory content); holds for storable trials, where the write succeeds (C17)."
  },
  {
   "property": "C53",
   "status": "partial",
   "theorems": [
    "Neps.MF.C53_hb_answers_partial",
    "Neps.MF.C53_sh_answers_partial",
    "Neps.MF.C53_asha_answers_partial",
    "Neps.MF.C53_ahb_answers_partial",
    "Neps.MF.C53_sh_ignore_errors_fails",
    "Neps.MF.C53_asha_early_stopping_fails"
   ],
   "note": "Proved when no evaluation failed or failures have a replacement loss, and for ASHA without early stopping rate. The two _fails theorems show that the code raises otherwise."
  },
  {
   "property": "C54",
   "status": "proved",
   "theorems": [
    "Neps.MF.C54_new_only_if_blocked",
    "Neps.MF.C54_new_at_lowest_rung",
    "Neps.MF.C54_one_bracket"
   ],
   "note": "A trial that finished with loss NaN counts as waiting: the code treats it as pending for ever."
  },
  {
   "property": "C55",
   "status": "partial",
   "theorems": [
    "Verif.Space.C55_float_always_legal",
    "Verif.Space.C55_int_always_legal_partial",
    "Verif.Space.C55_int_load_fails",
    "Verif.Space.C55_cat_legal_partial"
   ],
   "note": "Missing: load_from of an integer parameter checks nothing (C55_int_load_fails); a categorical keeps an invalid value after a raising set_value (C34_categorical_fails)."
  },
  {
   "property": "C56",
   "status": "partial",
   "theorems": [
    "Verif.Space.C56_float_set_default",
    "Verif.Space.C56_cat_set_default",
    "Verif.Space.C56_int_set_default_partial",
    "Verif.Space.C56_int_default_fails"
   ],
   "note": "Missing: an integer parameter raises but has stored the invalid default (C56_int_default_fails)."
  },
  {
   "property": "C57",
   "status": "proved",
   "theorems": [
    "Verif.Space.C57_prior_probabilities"
   ],
   "note": ""
  },
  {
   "property": "C58",
   "status": "partial",
   "theorems": [
    "Verif.Space.C58_float_clone_partial",
    "Verif.Space.C58_int_clone_partial",
    "Verif.Space.C58_cat_clone_partial",
    "Verif.Space.C58_confidence_fails"
   ],
   "note": "Missing: a confidence set after construction is lost in the copy (C58_confidence_fails)."
  },
  {
   "property": "C59",
   "status": "proved",
   "theorems": [
    "Verif.Space.SearchSpace.C59_sample",
    "Verif.Space.SearchSpace.C59_sample_total"
   ],
   "note": ""
  },
  {
   "property": "C60",
   "status": "proved",
   "theorems": [
    "Verif.Space.SearchSpace.C60_from_dict",
    "Verif.Space.SearchSpace.C60_unknown_rejected",
    "Verif.Space.SearchSpace.C60_round_trip"
   ],
   "note": ""
  },
  {
   "property": "C61",
   "status": "partial",
   "theorems": [
    "Verif.Space.SearchSpace.C61_mutate",
    "Verif.Space.SearchSpace.C61_mutate_progress",
    "Verif.Space.SearchSpace.C61_parent_fails"
   ],
   "note": "Without a parent the property holds. With a parent every attempt raises (C61_parent_fails)."
  },
  {
   "property": "C62",
   "status": "partial",
   "theorems": [
    "Verif.Space.SearchSpace.C62_crossover",
    "Verif.Space.SearchSpace.C62_crossover_progress",
    "Verif.Space.SearchSpace.C62_categorical_exchange_fails"
   ],
   "note": "Legality, inheritance and success hold. Categorical values are not exchanged: the other configuration is passed as first parent, so the swap is undone (C62_categorical_exchange_fails)."
  },
  {
   "property": "C63",
   "status": "proved",
   "theorems": [
    "Verif.Space.SearchSpace.C63_default",
    "Verif.Space.SearchSpace.C63_missing_raises",
    "Verif.Space.SearchSpace.C63_default_total"
   ],
   "note": ""
  },
  {
   "property": "C64",
   "status": "partial",
   "theorems": [
    "Verif.Space.SearchSpace.C64_equal_iff",
    "Verif.Space.SearchSpace.C64_symmetric",
    "Verif.Space.SearchSpace.C64_reflexive",
    "Verif.Space.SearchSpace.C64_float_constants_fails",
    "Verif.Space.SearchSpace.C64_not_transitive_fails"
   ],
   "note": "Exact characterisation, reflexivity and symmetry hold. Not transitive (rounded differences), and spaces of float constants, such as the configurations of a grid, are always equal."
  },
  {
   "property": "C65",
   "status": "partial",
   "theorems": [
    "Verif.Space.SearchSpace.C65_set_from_dict",
    "Verif.Space.SearchSpace.C65_nothing_rejected",
    "Verif.Space.SearchSpace.C65_atomic_fails",
    "Verif.Space.SearchSpace.C65_confidence",
    "Verif.Space.SearchSpace.C65_confidence_rejected",
    "Verif.Space.SearchSpace.C65_illegal_rejected"
   ],
   "note": "With legal values the property holds; an illegal value leaves the parameters before it changed (C65_atomic_fails). Confidences are set with the defaults, and only for parameters that have one (C65_confidence, C65_confidence_rejected). C65_illegal_rejected: a value outside the range or choices of a non-constant parameter is rejected, anywhere in the dictionary and under all options."
  },
  {
   "property": "C66",
   "status": "partial",
   "theorems": [
    "Verif.Args.C66_accepted",
    "Verif.Args.C66_unknown",
    "Verif.Args.C66_wrong_type",
    "Verif.Args.C66_integer_penalty_fails"
   ],
   "note": "Proved as stated; the converse (documented values are accepted) fails: an integer loss_value_on_error or cost_value_on_error is documented but rejected (C66_integer_penalty_fails)."
  },
  {
   "property": "C67",
   "status": "partial",
   "theorems": [
    "Verif.Args.C38_named",
    "Verif.Args.C38_dict",
    "Verif.Args.C38_grid_search_fails",
    "Verif.Args.C38_none_fails"
   ],
   "note": "Holds for the twelve searchers with a configuration file (C38_named); fails for grid_search and three others, which have none, and for None, which raises."
  },
  {
   "property": "C68",
   "status": "proved",
   "theorems": [
    "Verif.Args.C68_read_again",
    "Verif.Args.C68_names",
    "Verif.Args.C68_unchanged_fails"
   ],
   "note": "C68_unchanged_fails is the witness that the caller's dictionary does change."
  },
  {
   "property": "C69",
   "status": "partial",
   "theorems": [
    "Verif.Args.C69_inline_partial",
    "Verif.Args.C69_file",
    "Verif.Args.C69_path_name_fails"
   ],
   "note": "Inline spaces whose parameters are exactly path and name are mistaken for a reference to a Python object."
  },
  {
   "property": "C70",
   "status": "partial",
   "theorems": [
    "Neps.Status.C70_csv_partial",
    "Neps.Status.C70_save",
    "Neps.Status.C70_all_failed_fails",
    "Neps.Status.C70_pending_fails",
    "Neps.Status.sortRows_sorts"
   ],
   "note": "Content and order of both files proved when some trial succeeded; refuted: no trial succeeded (raises), pending trials missing."
  },
  {
   "property": "C71",
   "status": "partial",
   "theorems": [
    "Neps.Run.C71_arguments_partial",
    "Neps.Run.C71_reserved_name_fails"
   ],
   "note": "Proved for spaces without a hyperparameter named like an injected argument; such a name makes every call raise."
  },
  {
   "property": "C72",
   "status": "partial",
   "theorems": [
    "Neps.Seed.C72_histories",
    "Neps.Seed.C72_continuation",
    "Neps.Seed.C72_numbering",
    "Neps.Seed.C72_quota",
    "Neps.Seed.C72_best",
    "Neps.Seed.C72_hb_sampling_partial",
    "Neps.Seed.C72_ahb_sampling_partial",
    "Neps.Seed.C72_sh_sampling_partial",
    "Neps.Seed.C72_asha_sampling_partial"
   ],
   "note": "Refinement: every execution of the worker transition system yields a history in the sense of the multi-fidelity theorems. C72_best assumes that no finished trial is claimed again (see C05/C06); the sampling theorems assume that no evaluation has failed or that failures have a loss value (C53), and no unreadable trial directory; ASHA without early stopping."
  },
  {
   "property": "C73",
   "status": "partial",
   "theorems": [
    "Verif.Sampling.C73_rows",
    "Verif.Sampling.C73_probabilities",
    "Verif.Sampling.C73_rejected",
    "Verif.Sampling.C73_border_fails"
   ],
   "note": "Holds for samplers that return as many rows as asked for. A border sampler caps the number of rows at the number of corners, so a combination containing one raises, or repeats one corner, when it is drawn more often than there are corners (C73_border_fails)."
  },
  {
   "property": "C74",
   "status": "partial",
   "theorems": [
    "Verif.Sampling.C74_categorical",
    "Verif.Sampling.C74_mode_iff",
    "Verif.Sampling.C74_numerical",
    "Verif.Sampling.C74_density",
    "Verif.Sampling.C74_samples",
    "Verif.Sampling.C74_low_confidence_fails",
    "Verif.Sampling.C74_categorical_parameter_fails"
   ],
   "note": "The default of a categorical column is the mode exactly if the confidence is at least one over the number of choices: with low confidence and two or three choices the default is the least probable choice (C74_low_confidence_fails). The domain of a categorical parameter is not marked as categorical, so the prior of a search space never uses the documented weights but a truncated normal distribution over the order of the choices (C74_categorical_parameter_fails)."
  },
  {
   "property": "C75",
   "status": "partial",
   "theorems": [
    "Verif.Sampling.C75_own_prior_partial",
    "Verif.Sampling.C75_columns",
    "Verif.Sampling.C75_aligned_iff",
    "Verif.Sampling.C75_mixed_up_fails"
   ],
   "note": "The prior lists the numerical parameters first, the encoder sorts all parameters by name. They agree exactly if all names of numerical parameters precede those of categorical ones (C75_aligned_iff); otherwise parameters are sampled from the priors of others (C75_mixed_up_fails). C75_columns says which for every space."
  },
  {
   "property": "C76",
   "status": "partial",
   "theorems": [
    "Verif.Sampling.C76_value_partial",
    "Verif.Sampling.C76_raises_iff",
    "Verif.Sampling.C76_single",
    "Verif.Sampling.C76_sum_fails",
    "Verif.Sampling.C76_missing_default_fails",
    "Verif.Sampling.C76_flat"
   ],
   "note": "It raises exactly if a column without prior precedes one with a prior (C76_raises_iff), e.g. for a parameter without default listed before one with a default. Otherwise the first column has weight one and the others one over the number of columns (C76_value_partial), which is not the sum and does not order configurations by their density (C76_sum_fails); with one column with a prior it is right (C76_single). That the code's density of a truncated normal distribution is the one stated is assumed."
  },
  {
   "property": "C77",
   "status": "partial",
   "theorems": [
    "Verif.Bo.C77_exponent",
    "Verif.Bo.C77_forgotten",
    "Verif.Bo.C77_no_prior",
    "Verif.Bo.C77_weight_plain_partial",
    "Verif.Bo.C77_prior_does_not_fade_fails",
    "Verif.Bo.C77_scales_disagree_fails"
   ],
   "note": "The exponent fades and the prior is dropped at the latest ten configurations per dimension after the initial design. The weight is right on the plain scale, but the acquisition function in use is on a log scale, where the exponent is added to the log density instead of multiplied: the preference between candidates does not change with the rounds until the prior is dropped at once."
  },
  {
   "property": "C78",
   "status": "partial",
   "theorems": [
    "Verif.Bo.C78_fidelity",
    "Verif.Bo.C78_default_first",
    "Verif.Bo.C78_samples_partial",
    "Verif.Bo.C78_rejected",
    "Verif.Bo.C78_half_space_fails",
    "Verif.Bo.C78_fewer_fails"
   ],
   "note": "torch.unique sorts the rows, and the first n of 2n are kept: for a Sobol sample all of them are in the lower half of the first column. Repeated rows give fewer configurations. The missing-key test does not see a fidelity with an empty name."
  },
  {
   "property": "C79",
   "status": "partial",
   "theorems": [
    "Verif.Bo.C79_rows",
    "Verif.Bo.C79_targets_partial",
    "Verif.Bo.C79_no_loss_fails"
   ],
   "note": "Without any reported loss all targets are NaN."
  },
  {
   "property": "C80",
   "status": "partial",
   "theorems": [
    "Verif.Bo.C80_cheaper_preferred",
    "Verif.Bo.C80_better_preferred",
    "Verif.Bo.C80_no_effect_at_end",
    "Verif.Bo.C80_scales_agree",
    "Verif.Bo.C80_unused_share_partial",
    "Verif.Bo.C80_missing_cost_fails",
    "Verif.Bo.C80_overspent_fails"
   ],
   "note": "A single missing cost raises, although missing costs are meant to be ignored; an overspent budget and a budget of zero raise."
  },
  {
   "property": "C81",
   "status": "partial",
   "theorems": [
    "Verif.Bo.C81_every_combination",
    "Verif.Bo.C81_too_many_rejected",
    "Verif.Bo.C81_continuous",
    "Verif.Bo.C81_restarts_partial",
    "Verif.Bo.C81_no_restarts_fails"
   ],
   "note": "With more combinations than restarts the optimizer is called with zero restarts."
  },
  {
   "property": "C82",
   "status": "partial",
   "theorems": [
    "Verif.PriorBand.C82_active_iff",
    "Verif.PriorBand.C82_activates",
    "Verif.PriorBand.C82_bracket_done",
    "Verif.PriorBand.C82_incumbent",
    "Verif.PriorBand.C82_incumbent_exists",
    "Verif.PriorBand.C82_stays_active_fails"
   ],
   "note": "Activation is characterised exactly over every history, and a finished bracket activates it. 'From then on' is false in asynchronous search: a promoted configuration that is being continued counts with nothing, so activation can be lost again (C82_stays_active_fails)."
  },
  {
   "property": "C83",
   "status": "proved",
   "theorems": [
    "Verif.PriorBand.C83_choice_iff",
    "Verif.PriorBand.C83_choice_total",
    "Verif.PriorBand.C83_zero_never",
    "Verif.PriorBand.C83_policy",
    "Verif.PriorBand.C83_inactive_never_inc",
    "Verif.PriorBand.C83_crossover_defined",
    "Verif.PriorBand.C83_crossover",
    "Verif.PriorBand.C83_crossover_prior",
    "Verif.PriorBand.C83_brackets",
    "Verif.PriorBand.C83_brackets_ratio"
   ],
   "note": "Probability of an outcome is the length of the interval of uniform numbers that lead to it. numpy's tolerance on the sum of the weights is not modelled."
  },
  {
   "property": "C84",
   "status": "partial",
   "theorems": [
    "Verif.PriorBand.C84_mutation",
    "Verif.PriorBand.C84_mutation_total",
    "Verif.PriorBand.C84_crossover",
    "Verif.PriorBand.C84_crossover_self",
    "Verif.PriorBand.C84_gaussian_partial",
    "Verif.PriorBand.C84_gaussian_categorical_fails"
   ],
   "note": "Mutation and crossover proved. Gaussian sampling is centred at the incumbent only for numerical parameters: a categorical keeps the default of the prior (C84_gaussian_categorical_fails). A crossover of two configurations that agree is always a fresh uniform sample; a mutant whose attempts all failed is an exact copy."
  },
  {
   "property": "C85",
   "status": "partial",
   "theorems": [
    "Verif.PriorBand.C85_distance",
    "Verif.PriorBand.C85_metric",
    "Verif.PriorBand.C85_bounded",
    "Verif.PriorBand.C85_nearest",
    "Verif.PriorBand.C85_nearest_fails",
    "Verif.PriorBand.C85_sphere",
    "Verif.PriorBand.C85_sphere_ends",
    "Verif.PriorBand.C85_sphere_zero_fails"
   ],
   "note": "Proved, except that there is no radius if every observed configuration agrees with the incumbent (C85_nearest_fails): the minimum of no numbers raises. Sampling ends for a positive radius, which C85_nearest provides; with radius zero it need not (C85_sphere_zero_fails)."
  },
  {
   "property": "C86",
   "status": "partial",
   "theorems": [
    "Verif.PriorBand.C86_active",
    "Verif.PriorBand.C86_init_over",
    "Verif.PriorBand.C86_train_rung",
    "Verif.PriorBand.C86_train_joint",
    "Verif.PriorBand.C86_pending",
    "Verif.PriorBand.C86_pending_joint",
    "Verif.PriorBand.C86_joint_init",
    "Verif.PriorBand.C86_joint_init_over_fails",
    "Verif.PriorBand.C86_initial",
    "Verif.PriorBand.C86_model_fails",
    "Verif.PriorBand.C86_prior_weight"
   ],
   "note": "The data and the initial phase are proved. After the initial phase nothing is sampled from the surrogate: ModelPolicy.sample reads an attribute that is never set, so priorband_bo and mobster raise (C86_model_fails). A finished trial whose loss is NaN is passed both as data and as pending (C86_pending). The prior weights the acquisition function only after 100000 full evaluations, the reverse of what the comment says (C86_prior_weight). The surrogate itself is not modelled. With the joint surrogate the initial phase can come back when a configuration is continued (C86_joint_init_over_fails)."
  },
  {
   "property": "C87",
   "status": "partial",
   "theorems": [
    "Verif.Ifbo.C87_adjust_float",
    "Verif.Ifbo.C87_adjust_int",
    "Verif.Ifbo.C87_accepted_iff",
    "Verif.Ifbo.C87_default_fails",
    "Verif.Ifbo.C87_single_step_fails",
    "Verif.Ifbo.C87_upper_one_fails",
    "Verif.Ifbo.C88_increment_fails"
   ],
   "note": "Exact arithmetic. False of the code: a default at the lower bound is rejected when the step does not divide the range; with a single step every ask after the initial design raises; with an upper bound of 1 (fractions of a data set) proposals after the initial design have fidelity NaN; the distance between two evaluated levels is step*n/(n-1), not the step size. Integer fidelities are covered for whole step sizes."
  },
  {
   "property": "C88",
   "status": "partial",
   "theorems": [
    "Verif.Ifbo.C88_float_history",
    "Verif.Ifbo.C88_float_ask",
    "Verif.Ifbo.C88_float_total",
    "Verif.Ifbo.C88_int_history_partial",
    "Verif.Ifbo.C88_int_ask_partial",
    "Verif.Ifbo.C88_accepted",
    "Verif.Ifbo.C88_int_predecessor_fails",
    "Verif.Ifbo.C88_parallel_fails"
   ],
   "note": "Proved for float fidelities (exact arithmetic, at least two steps, upper bound not 1) and for integer fidelities with at most step+1 steps. False of the code: for every integer fidelity with more steps (1 to 4 epochs in steps of 1) there is a sequential run without errors in which ask names a predecessor that does not exist and the worker stops; with several workers the continuation of a running trial can be proposed again under an id that exists."
  },
  {
   "property": "C89",
   "status": "proved",
   "theorems": [
    "Verif.Ifbo.C89_acquire",
    "Verif.Ifbo.C89_acquire_total"
   ],
   "note": "The scores are an arbitrary function of the candidate; two evaluations of one configuration at one budget do not occur by C88 and are excluded where the theorem compares with an evaluated configuration."
  },
  {
   "property": "C90",
   "status": "proved",
   "theorems": [
    "Verif.Gram.C90_sampled",
    "Verif.Gram.C90_prior"
   ],
   "note": "For every grammar, whatever the random numbers; running out of recursion (Python's limit) is a failed call in the model."
  },
  {
   "property": "C91",
   "status": "partial",
   "theorems": [
    "Verif.Gram.C91_complete_partial",
    "Verif.Gram.C91_siblings_fails",
    "Verif.Gram.C91_complete_fails"
   ],
   "note": "Refuted: the cache of the sampler makes equal nonterminals of one production equal subtrees, so `(S (A a) (A b))` is never sampled from S -> A A. Proved for trees in which different subtrees with the same root only occur inside each other."
  },
  {
   "property": "C92",
   "status": "partial",
   "theorems": [
    "Verif.Gram.C92_simple",
    "Verif.Gram.C92_bananas",
    "Verif.Gram.C92_remove",
    "Verif.Gram.C92_clash_fails",
    "Verif.Gram.C92_simple_root_fails",
    "Verif.Gram.C92_bananas_root_fails"
   ],
   "note": "Proved for grammars in which no terminal is one character followed by a nonterminal with several productions and symbols hold no spaces or brackets. Refuted: with such a terminal the child is no parse tree; a tree whose root is its only choice has no simple mutation; bananas does not retry at the root and raises."
  },
  {
   "property": "C93",
   "status": "partial",
   "theorems": [
    "Verif.Gram.C93_crossover",
    "Verif.Gram.C93_gives_up",
    "Verif.Gram.C93_root_fails"
   ],
   "note": "Trees proved under the same condition on the grammar as C92. Refuted: when the only subtree of the second parent with the chosen root is the whole second parent, crossover raises."
  },
  {
   "property": "C94",
   "status": "partial",
   "theorems": [
    "Verif.Gram.C94_prior_iff",
    "Verif.Gram.C94_checks_fail",
    "Verif.Gram.C94_dangling_fails",
    "Verif.Gram.C94_negative_fails"
   ],
   "note": "Acceptance of priors characterised. Refuted: no grammar is ever rejected, not even one with a nonterminal without productions; negative probabilities are accepted and then every sample raises."
  },
  {
   "property": "C95",
   "status": "partial",
   "theorems": [
    "Verif.Gram.C95_product_partial",
    "Verif.Gram.C95_log_fails",
    "Verif.Gram.C95_prefix_raises_fails",
    "Verif.Gram.C95_prefix_wrong_fails",
    "Verif.Gram.C95_sampler_fails"
   ],
   "note": "The product is proved for log=False and grammars whose texts can be read back and in which no right hand side is a proper prefix of another. Refuted: log=True, the default, always raises; with a right hand side that is a prefix of another one the value is wrong or cannot be computed; the value is not the probability of sampling because the sampler reuses subtrees."
  },
  {
   "property": "C96",
   "status": "proved",
   "theorems": [
    "Verif.Arch.C96_pruned",
    "Verif.Arch.C96_output_with_successor_fails"
   ],
   "note": "For outputs without successors, as everywhere in the code; without this condition the output itself may be removed."
  },
  {
   "property": "C97",
   "status": "partial",
   "theorems": [
    "Neps.Cli.C97_numbered_partial",
    "Neps.Cli.C97_rungs_partial",
    "Neps.Cli.C97_plot_partial",
    "Neps.Cli.C97_same_best",
    "Neps.Cli.C97_sampling_order_fails",
    "Neps.Cli.C97_deep_rungs_fails",
    "Neps.Cli.C97_failed_trial_fails",
    "Neps.Cli.C97_error_value_fails"
   ],
   "note": "Proved for numbered trials and for multi-fidelity ids with rungs below 10 (in the order of the ids), if every report has a loss. Refuted: the order of sampling in multi-fidelity runs; rungs with two digits (int('1_10') is 110); a failed trial without loss value makes the command raise; a failed trial with a loss value may be listed as the best."
  },
  {
   "property": "C98",
   "status": "partial",
   "theorems": [
    "Neps.Cli.C98_table",
    "Neps.Cli.C98_counts_partial",
    "Neps.Cli.C98_best",
    "Neps.Cli.C98_pending_fails",
    "Neps.Cli.C98_no_best"
   ],
   "note": "The table, the best trial and the numbers of succeeded, failed and active trials are right. The number of pending trials is always printed as 0."
  },
  {
   "property": "C99",
   "status": "partial",
   "theorems": [
    "Neps.Cli.C99_finished",
    "Neps.Cli.C99_unknown",
    "Neps.Cli.C99_unfinished_fails"
   ],
   "note": "For evaluated trials and unknown ids. For trials that wait or are being evaluated the command raises TypeError."
  }
 ]
}
