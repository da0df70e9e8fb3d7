{"id": "C01", "title": "A stale write to a shared resource is refused and changes nothing", "statement": "For every shared resource and every history of operations by any number of workers: a put through a handle succeeds exactly when no other handle has successfully put since this handle last synced (or put); when it is refused with VersionMismatchError the version and the data on disk are the ones that were there before.", "quantifier": "all finite interleavings of load / synced / put / acquire by any number of workers on one resource", "why_tests_cant": "the claim is about every interleaving of every number of workers; a test fixes one schedule", "anchors": ["neps/state/protocols.py:VersionedResource.put", "neps/state/protocols.py:Synced.put", "neps/state/filebased.py:FileVersioner"]}
{"id": "C02", "title": "synced() returns the latest committed value", "statement": "After any history of complete operations, synced() on any handle returns exactly the data of the last successful write to the resource (by whichever worker), even though the handle keeps a cache and re-reads the files only when the version tag changed.", "quantifier": "all finite interleavings of complete operations by any number of workers, all data values", "why_tests_cant": "cache-coherence bugs appear only in particular interleavings of two caches", "anchors": ["neps/state/protocols.py:VersionedResource.sync", "neps/state/protocols.py:Synced.synced"]}
{"id": "C03", "title": "Read-modify-write under acquire() never loses an update", "statement": "If every worker changes a shared resource only inside acquire(), the final value is the initial value with all the modification functions applied one after the other in lock order; no modification is dropped and none is applied twice.", "quantifier": "all sequences of modification functions by any number of workers, all initial values", "why_tests_cant": "quantifies over every sequence of critical sections", "anchors": ["neps/state/protocols.py:Synced.acquire", "neps/state/neps_state.py:NePSState.report_trial_evaluation"]}
{"id": "C04", "title": "A worker killed inside put() leaves a resource other workers still handle correctly", "statement": "If a worker is killed between any two file writes of a put(), then afterwards every other worker that syncs sees either the old or the new value, the same one for all workers, and a put through a handle that was in date before the crash does not silently discard the new value.", "quantifier": "every crash point inside put(), every state of the other workers' caches", "why_tests_cant": "crash points lie between individual file writes", "anchors": ["neps/state/protocols.py:VersionedResource.put"]}
{"id": "C05", "title": "A worker killed while creating a resource does not brick it", "statement": "If a worker is killed between any two file writes of the creation of a resource, a later new_or_load() on the same location succeeds.", "quantifier": "every crash point inside creation of a versioned resource", "why_tests_cant": "crash points lie between individual file writes", "anchors": ["neps/state/protocols.py:VersionedResource.new", "neps/state/protocols.py:Synced.new_or_load"]}
{"id": "C06", "title": "Creation never overwrites", "statement": "new() on an existing resource and put_new() of an existing trial id raise and leave the disk unchanged; new_or_load() ignores the data passed when the resource exists, so among any number of racing workers exactly one initial value wins and all of them return it.", "quantifier": "all orders of any number of racing creators, all data", "why_tests_cant": "needs every order of racing creators", "anchors": ["neps/state/protocols.py:Synced.new_or_load", "neps/state/filebased.py:TrialRepoInDirectory.put_new"]}
{"id": "C07", "title": "Each trial is evaluated by at most one worker", "statement": "In a run with any number of workers, no two workers (nor the same worker twice) call the objective for the same trial.", "quantifier": "all interleavings of the worker loops of any number of workers", "why_tests_cant": "needs every schedule of the two reads and one write of the claim protocol", "anchors": ["neps/runtime.py:DefaultWorker.run", "neps/state/neps_state.py:NePSState.get_next_pending_trial", "neps/state/filebased.py:TrialRepoInDirectory.pending"]}
{"id": "C08", "title": "Trials and reports are never lost", "statement": "Along any run, trial ids present on disk stay present, a trial's configuration never changes, and once a report is on disk the trial keeps a report for ever.", "quantifier": "all interleavings of any number of worker loops, including kills between operations", "why_tests_cant": "history property over unbounded runs", "anchors": ["neps/state/neps_state.py:NePSState", "neps/runtime.py:DefaultWorker.run"]}
{"id": "C09", "title": "Pending trials are handed out oldest first", "statement": "get_next_pending_trial returns a trial that was PENDING and whose time_sampled is minimal among all trials that were PENDING, whatever order the directory listing returns; get_next_pending_trial(n) returns the n oldest in order; None is returned only if no trial is PENDING.", "quantifier": "all sets of trials, all directory orders", "why_tests_cant": "directory order is up to the file system", "anchors": ["neps/state/filebased.py:TrialRepoInDirectory.pending", "neps/state/neps_state.py:NePSState.get_next_pending_trial"]}
{"id": "C10", "title": "The shared cost budget equals the sum of reported costs", "statement": "Whenever no worker is inside report_trial_evaluation, used_cost_budget on disk equals the sum of the costs of all evaluations reported so far (reports without a cost count zero), for any number of workers.", "quantifier": "all interleavings, any number of evaluations and costs", "why_tests_cant": "sum over an unbounded history with concurrent increments", "anchors": ["neps/state/neps_state.py:NePSState.report_trial_evaluation", "neps/state/optimizer.py:BudgetInfo"]}
{"id": "C100", "title": "Searcher arguments on the command line keep their values", "statement": "--searcher-kwargs key=value passes on the value after the first equals sign of the last item with that key, as the integer, truth value or number Python would print like that, and as text otherwise.", "quantifier": "all lists of items, keys and values", "why_tests_cant": "all integers and texts", "anchors": ["neps/utils/cli.py:parse_kv_pairs"]}
{"id": "C101", "title": "A displayed duration is the duration in whole seconds", "statement": "The text shown for a duration reads as its whole seconds: days, hours below 24, minutes and seconds below 60.", "quantifier": "all durations", "why_tests_cant": "unbounded durations", "anchors": ["neps/utils/cli.py:format_duration", "neps/utils/cli.py:compute_duration"]}
{"id": "C102", "title": "Calling a topology evaluates its graph", "statement": "A sequential, residual, diamond, diamond-mid or dense topology that was built with one operation per edge, called on an input, gives the input to the first node, lets every edge apply its own operation to the value of its source, merges at every node the values of all its incoming edges in a fixed order, and returns the value of the last node.", "quantifier": "all predefined topologies of all sizes, all operations, merge functions and inputs; also every graph that is numbered breadth first", "why_tests_cant": "the order in which nodes are visited depends on the graph; every size of a dense topology", "anchors": ["neps/search_spaces/architecture/topologies.py:AbstractTopology.__call__", "neps/search_spaces/architecture/topologies.py:Sequential", "neps/search_spaces/architecture/topologies.py:DenseNCell"]}
{"id": "C103", "title": "A continued trial loads what the trial it continues saved", "statement": "load_checkpoint, called while a trial is evaluated, returns what the trial it continues saved last with save_checkpoint under that name, whatever other trials saved, and nothing if there is no such trial or it saved nothing; load_lightning_checkpoint loads the latest checkpoint file.", "quantifier": "all executions with any number of workers, kills and saves in between, all names and contents", "why_tests_cant": "interleaving of saves by several workers, arbitrary histories of saves", "anchors": ["neps/utils/common.py:load_checkpoint", "neps/utils/common.py:save_checkpoint", "neps/utils/common.py:load_lightning_checkpoint"]}
{"id": "C104", "title": "Logged losses, images and hyperparameters end up in the log of their trial", "statement": "A call of the TensorBoard logger from within an objective writes exactly what it was asked to write, once, at the given epoch, into the log of the trial that is being evaluated (of the first trial of its lineage if it continues another), under one curve name per trial; the incumbent graph gets, at the end of an evaluation, the number of evaluated trials and the best loss of the run including this evaluation.", "quantifier": "all sequences of evaluations in a process, all sequences of logging calls within one, all arguments, all runs in a process", "why_tests_cant": "the logger keeps its state in class variables that survive calls, trials and runs; which trial wrote last matters", "anchors": ["neps/plot/tensorboard_eval.py:tblogger", "neps/runtime.py:_set_workers_neps_state"]}
{"id": "C105", "title": "A logged picture shows every chosen image completely", "statement": "The picture that is logged for a batch of images shows the first num_images images, or those that were drawn, each of them complete and exactly once, in order, separated by black padding.", "quantifier": "all numbers and sizes of images and all pixel values", "why_tests_cant": "the arithmetic of cells depends on batch size, row length and image size together", "anchors": ["neps/plot/tensorboard_eval.py:tblogger._make_grid", "neps/plot/tensorboard_eval.py:tblogger._write_image_config"]}
{"id": "C106", "title": "The prior of a configuration", "statement": "compute_prior is the product, over the parameters with a default (without the fidelity, if asked), of how likely the value is around the default: for a number the density of a normal distribution truncated to the range, on the parameter's scale, centered at the default, with the confidence times the length of the range as standard deviation, in units of it; for a choice its probability. With log=True it is the sum of the logarithms of these factors plus 1e-12. A configuration that is at least as close to the default in every parameter has at least the prior of the other one.", "quantifier": "all spaces, ranges, scales, defaults, confidences and values", "why_tests_cant": "unbounded spaces and real values; the truncated density needs integrals", "anchors": ["neps/search_spaces/search_space.py:SearchSpace.compute_prior", "neps/search_spaces/hyperparameters/numerical.py:NumericalParameter.compute_prior", "neps/search_spaces/hyperparameters/categorical.py:CategoricalParameter.compute_prior"]}
{"id": "C107", "title": "PriorBand scores a configuration by its likelihood around the prior and around the incumbent", "statement": "compute_scores returns the likelihood of a configuration around the defaults of the prior and around the values of the incumbent, as in C106, with the confidence the parameters were declared with; the fidelity is not counted.", "quantifier": "all spaces, configurations, priors and incumbents", "why_tests_cant": "the result is a product over an arbitrary space of densities that depend on real values", "anchors": ["neps/optimizers/multi_fidelity_prior/utils.py:compute_scores", "neps/search_spaces/search_space.py:SearchSpace.set_defaults_to_current_values", "neps/search_spaces/search_space.py:SearchSpace.set_hyperparameters_from_dict"]}
{"id": "C108", "title": "The plotted trajectory shows the best loss found so far", "statement": "At every point of its axis the curve of neps.plot shows the mean, over the seeds, of the best loss among the trials that were finished within that many evaluations, or within that budget of the chosen metric.", "quantifier": "all sets of seeds, all sets of evaluated trials with any losses, costs and order of storage, every point of the axis, the counted metric", "why_tests_cant": "the order of the ids, the running minimum and the interpolation between seeds interact; a test looks at a picture of a few seeds", "anchors": ["neps/plot/read_results.py:process_seed", "neps/plot/plotting.py:_interpolate_time", "neps/plot/plotting.py:_plot_incumbent", "neps/plot/plot.py:plot"]}
{"id": "C109", "title": "An architecture is the composition its tree describes", "statement": "The network that is built from the identifier of an architecture (the text of its parse tree) is the composition of functions that the tree describes: every topology is applied to the functions of the symbols after it in its production, in their order.", "quantifier": "every grammar whose symbols can be told apart in a text, every assignment of terminals to topologies and primitive operations, every parse tree of any size and depth", "why_tests_cant": "The text is read character by character with three stacks whose sizes are compared to find the end of a production; a wrong architecture is built without an error, and trees are unbounded.", "anchors": ["neps/search_spaces/architecture/core_graph_grammar.py:CoreGraphGrammar._compose_functions", "neps/search_spaces/architecture/core_graph_grammar.py:skip_char", "neps/search_spaces/architecture/core_graph_grammar.py:find_longest_match"]}
{"id": "C11", "title": "The shared error log is complete, ordered and duplicate free", "statement": "Whenever no worker is inside report_trial_evaluation, the shared error log lists exactly the evaluations that raised, one entry per evaluation in the order their reports were appended, and the error used for stopping is the last one.", "quantifier": "all interleavings, any number of errors", "why_tests_cant": "unbounded history with concurrent appends", "anchors": ["neps/state/neps_state.py:NePSState.report_trial_evaluation", "neps/state/err_dump.py:ErrDump"]}
{"id": "C110", "title": "Flattening an architecture keeps its function", "statement": "A composed function made of nested topologies and the flat graph that to_pytorch makes of it compute the same output for every input; the flat graph has one input, one output and no cycle.", "quantifier": "all nestings of topologies with one input and one output, all operations on their edges, all inputs", "why_tests_cant": "nesting is unbounded and operations are arbitrary functions; tests look at a few architectures", "anchors": ["neps/search_spaces/architecture/core_graph_grammar.py:CoreGraphGrammar.flatten_graph"]}
{"id": "C111", "title": "Pruning an architecture removes what cannot matter and nothing else", "statement": "prune_graph leaves exactly the operations that are on a path from the input to the output without a zero operation, and the function computed stays the same; an operation counts as zero only if it is one of the zero operations.", "quantifier": "all graphs with one input and one output, all sets of edges with zero operations, all topological orders", "why_tests_cant": "which parts become unreachable depends on the whole graph; the number of graphs is unbounded", "anchors": ["neps/search_spaces/architecture/core_graph_grammar.py:CoreGraphGrammar.prune_graph", "neps/search_spaces/architecture/core_graph_grammar.py:CoreGraphGrammar.prune_unconnected_parts"]}
{"id": "C112", "title": "to_pytorch gives a module that computes the architecture", "statement": "For every architecture made of topologies and primitives, the module returned by to_pytorch gives, for every input, the output of the composed function; if zero operations leave no path from input to output, to_pytorch raises.", "quantifier": "all architectures, all inputs, all topological orders of their graphs", "why_tests_cant": "generated code is different for every architecture; tests run a few of them", "anchors": ["neps/search_spaces/architecture/graph.py:Graph._to_pytorch", "neps/search_spaces/architecture/api.py:ArchitectureParameter"]}
{"id": "C113", "title": "What a constrained grammar samples satisfies the constraint", "statement": "Every architecture sampled from a grammar with a constraint is a parse tree of the grammar in which every argument of every operation is one that the constraint, told the arguments before it, allows (for a constraint function: not the none operation where the function says no; for a constraint object: none of the productions it lists). A sampler that follows a prior never uses a production of probability zero. Every parse tree that the constraint allows can be sampled.", "quantifier": "all grammars, constraints, numbers of samples, start symbols, priors and random draws; all parse trees that the constraint allows", "why_tests_cant": "constraints are arbitrary functions of what has been sampled before, and trees have any depth", "anchors": ["neps/search_spaces/architecture/cfg_variants/constrained_cfg.py:ConstrainedGrammar.sampler", "neps/search_spaces/architecture/cfg_variants/constrained_cfg.py:ConstrainedGrammar._constrained_sampler", "neps/search_spaces/architecture/cfg_variants/constrained_cfg.py:ConstrainedGrammar._get_not_allowed_productions", "neps/search_spaces/architecture/cfg_variants/constrained_cfg.py:Constraint"]}
{"id": "C114", "title": "Mutation in a constrained grammar respects the constraint", "statement": "Mutating an architecture of a constrained grammar replaces one subtree, which is an argument of an operation, by a tree with the same root whose operations satisfy the constraint, and which is not the none operation if the constraint function, told the other arguments of the operation, says no; the architecture then still satisfies the constraint. Every such change can be the result.", "quantifier": "all grammars, constraint functions, architectures, places in them and random draws", "why_tests_cant": "the context of a place is recovered from the text of arbitrarily nested trees", "anchors": ["neps/search_spaces/architecture/cfg_variants/constrained_cfg.py:ConstrainedGrammar.mutate", "neps/search_spaces/architecture/cfg_variants/constrained_cfg.py:ConstrainedGrammar._compute_current_context"]}
{"id": "C115", "title": "Crossover in a constrained grammar respects the constraint", "statement": "Crossover of two architectures of a constrained grammar exchanges two different arguments, one from each, with the same root; both results are parse trees of the grammar, and neither argument is the none operation if the constraint function, told the other arguments in its new place, says no.", "quantifier": "all grammars, constraint functions, pairs of architectures, patience and random draws", "why_tests_cant": "all pairs of places in trees of any depth, and all constraint functions", "anchors": ["neps/search_spaces/architecture/cfg_variants/constrained_cfg.py:ConstrainedGrammar.crossover"]}
{"id": "C116", "title": "An architecture space is the grammar its structure describes", "statement": "ArchitectureParameter(structure=..., primitives=...) with a dictionary gives exactly the grammar written there: the first key is the start symbol, every key has the productions listed for it, in order, each production consists of its names in order, and a name is a terminal exactly if it is a primitive. A structure that uses a name that is neither a key nor a primitive is rejected.", "quantifier": "every dictionary of productions and every set of primitives", "why_tests_cant": "the text substitutions work on a string that depends on all names at once; names that are prefixes of others, repeated names and line ends interact, and no finite list of structures covers them", "anchors": ["neps/search_spaces/architecture/api.py:_dict_structure_to_str", "neps/search_spaces/architecture/api.py:ArchitectureParameter", "neps/search_spaces/architecture/cfg.py:Grammar.__init__"]}
{"id": "C117", "title": "A limit on a total is overrun by at most one evaluation per worker", "statement": "With several workers, once the costs of the reports on disk add up to max_cost_total, or the durations to max_evaluation_time_total_seconds, each worker calls the objective at most once more, and a worker that has still to begin its check of the limits (one that is reporting, or is started later) not at all. Costs and durations are taken to be non-negative numbers.", "quantifier": "all numbers of workers, all schedules, crash points and restarts before and after the limit is reached, all amounts and limits", "why_tests_cant": "all interleavings of any number of workers around the moment the limit is reached", "anchors": ["neps/runtime.py:DefaultWorker._check_if_should_stop", "neps/runtime.py:DefaultWorker.run", "neps/state/neps_state.py:NePSState.report_trial_evaluation"]}
{"id": "C118", "title": "A worker left alone finishes the job", "statement": "A worker that is left alone with a readable run directory, after any history of other workers and their crashes, makes progress: run with max_evaluations_total = N (errors ignored) it calls the objective exactly as often as trials are missing to N and then returns; with a limit on the number of evaluations, in total or by this worker, it ends whatever the other settings are; without any limit it calls the objective as often as one likes. The optimizer is assumed to propose new trials and the objective to return a value that can be understood, or to raise.", "quantifier": "all histories of other workers with all crash points, all optimizers and objectives that cooperate, all limits, listing orders and clocks", "why_tests_cant": "liveness: every finite test run could be one step too short, and all histories must be considered", "anchors": ["neps/runtime.py:DefaultWorker.run", "neps/runtime.py:DefaultWorker._check_if_should_stop", "neps/state/neps_state.py:NePSState.sample_trial"]}
{"id": "C119", "title": "A ConfigSpace is the space NePS searches", "statement": "A search space given to a run as a ConfigSpace object, or as a dictionary mixing own parameters and ConfigSpace objects, has exactly the declared parameters under their names: everything sampled from it is a configuration the declared spaces allow, every configuration they allow can be loaded and keeps its values, defaults, scales and the fidelity are those declared, and what NePS cannot express (conditions, forbidden clauses, unknown kinds of hyperparameters) is refused.", "quantifier": "every ConfigSpace object, every dictionary of own parameters and ConfigSpace objects, every sequence of random draws and every configuration", "why_tests_cant": "the tests convert a few fixed spaces; the claim ranges over all spaces, mixtures and draws", "anchors": ["neps/search_spaces/search_space.py:pipeline_space_from_configspace", "neps/api.py:_run_args"]}
{"id": "C12", "title": "max_evaluations_per_run is exact", "statement": "A worker with max_evaluations_for_worker = n calls the objective at most n times, and it stops for another reason or after exactly n calls.", "quantifier": "all n, all objective behaviours, all optimizers, all other stopping settings", "why_tests_cant": "quantifies over all loop lengths", "anchors": ["neps/runtime.py:DefaultWorker._check_if_should_stop", "neps/runtime.py:DefaultWorker.run"]}
{"id": "C120", "title": "The CSV files are right when several workers write them", "statement": "After workers have ended and each has written the CSV files, config_data.csv lists every evaluated trial once, every row was true, and no worker's write makes the files forget a trial that another worker had written.", "quantifier": "every history of any number of workers and writers, every interleaving of reading trials, evaluating and writing, every listing order, every previous content of the files", "why_tests_cant": "the damage needs one worker to read before and write after another one; a test with a few workers hardly ever hits it", "anchors": ["neps/status/status.py:post_run_csv", "neps/status/status.py:_get_dataframes_from_summary", "neps/status/status.py:_save_data_to_csv", "neps/api.py:run"]}
{"id": "C121", "title": "neps.status prints and returns the state of the run", "statement": "neps.status prints the numbers of evaluated, pending and crashed trials and the best loss with its trial, shows the trajectories if asked to, and returns the evaluated and the pending trials.", "quantifier": "every set of stored trials, every combination of the flags, every content of the run directory", "why_tests_cant": "the flags and the empty, failed and mixed runs combine to more cases than tests can list", "anchors": ["neps/status/status.py:status", "neps/status/status.py:get_summary_dict"]}
{"id": "C122", "title": "An architecture parameter holds the architecture it was given", "statement": "After any sequence of set_value, load_from, reading, copying, sampling and building a module, the identifier of an architecture parameter is the last one it was given and its value is the graph of that identifier; copies and parameters loaded from it have the same identifier and graph; a refused identifier changes nothing; parameters are equal exactly if their identifiers are.", "quantifier": "every kind of architecture, every sequence of operations of any length, every identifier, valid or not", "why_tests_cant": "identifier, string and graph are three caches filled at different times; whether they can disagree depends on the whole history", "anchors": ["neps/search_spaces/architecture/graph_grammar.py:GraphParameter", "neps/search_spaces/architecture/graph_grammar.py:GraphGrammar", "neps/search_spaces/architecture/api.py:ArchitectureParameter"]}
{"id": "C123", "title": "A sampled architecture can be read back from the run directory", "statement": "The configuration stored for a trial determines the architecture that was sampled: reading it and loading it into the search space gives the same architecture.", "quantifier": "every space with architecture parameters, every sampled architecture, before and after the objective has built the module", "why_tests_cant": "the loss is silent: the file is written without an error and the worker that sampled goes on with the object in memory; only another worker, a restart or a look at the file shows it", "anchors": ["neps/search_spaces/search_space.py:SearchSpace.hp_values", "neps/utils/files.py:serializable_format", "neps/state/filebased.py:ReaderWriterTrial.write", "neps/search_spaces/search_space.py:SearchSpace.from_dict"]}
{"id": "C124", "title": "The graph of an architecture shows what its text describes", "statement": "The value of an architecture parameter is a graph with one input, one output and one labelled node for every operation on a way from the input to the output that is neither 'zero' nor 'identity'. There is an edge exactly where a way through identity operations only leads from one of them to the other. If zero operations cut every way from the input to the output, an exception is raised instead.", "quantifier": "All trees of nested topologies and operations, all edge lists of topologies, all choices of zero and identity operations, all topological orders.", "why_tests_cant": "Nesting depth and edge lists are unbounded, and an error in numbering nodes or in reconnecting neighbours shows only for particular combinations of removed operations.", "anchors": ["neps/search_spaces/architecture/core_graph_grammar.py:CoreGraphGrammar.from_stringTree_to_graph_repr", "neps/search_spaces/architecture/graph_grammar.py:GraphGrammar.value"]}
{"id": "C125", "title": "Numerical priors are truncated normal distributions", "statement": "A float or integer parameter with a default and a confidence has, as its prior, the normal distribution whose mean is the position of the default in the unit interval and whose standard deviation is one minus the confidence, cut off at the bounds of the parameter. For every value x the probability that a sample drawn from the prior is at most x is that of this distribution, to within 0.00002; the log density the prior reports for a value is that of this distribution, to within a constant of the same size that is the same for all values; samples never leave the bounds.", "quantifier": "all float and integer domains (linear and logarithmic), all defaults in them, all confidences from 0 to 1, all values x, the whole law of the samples", "why_tests_cant": "A test can draw samples and compare histograms for a few defaults; that the clamping of probabilities at 1e-6 never distorts the law by more than rounding, for every default and confidence, is a statement about all of them and about integrals.", "anchors": ["neps/sampling/distributions.py:TruncatedNormal", "neps/sampling/distributions.py:TruncatedStandardNormal", "neps/sampling/priors.py:Prior.make_centered"]}
{"id": "C126", "title": "neps run on the command line is the call of neps.run its options describe", "statement": "For every command line, `neps run OPTIONS` uses the settings of the call of neps.run with exactly the arguments that the options describe: an option stands for the argument of the same name, what is not given keeps its default (so that a YAML file can set it), the last occurrence counts, and the items key=value after --searcher-kwargs are further keyword arguments. Command lines with unknown options, arguments of the wrong kind, contradicting options, malformed items or a function that cannot be loaded start no run.", "quantifier": "all command lines, files and functions", "why_tests_cant": "there are infinitely many combinations of options and items; tests call a few", "anchors": ["neps/utils/cli.py:run_optimization", "neps/utils/cli.py:main", "neps/utils/cli.py:parse_kv_pairs", "neps/api.py:run", "neps/utils/run_args.py:Settings"]}
{"id": "C127", "title": "The commands that show a run look at the directory of the run", "statement": "For every run, the commands `neps status`, `neps results`, `neps errors` and `neps info-config`, called with the root directory of the run, or without an option in the directory of the run_config.yaml that the run was started with, look at the directory in which the run stores its trials.", "quantifier": "all calls of neps.run, all YAML files", "why_tests_cant": "the directory depends on arguments, sections of the file and ids; tests use one layout", "anchors": ["neps/utils/cli.py:get_root_directory", "neps/api.py:run"]}
{"id": "C128", "title": "Looking at a run does not disturb it and shows what was stored", "statement": "neps.status, neps.get_summary_dict and the commands status, errors, info-config and results look at a root directory. Whatever the workers do meanwhile, they behave as if nobody looked. A look that returns shows for every shared resource a value that was stored at some moment of the look, and the optimizer info of the run. As soon as a worker has started, a look neither raises nor waits for a killed worker. While the run is being created, a look can only fail because the directory or a resource is not there yet, never because of a half-written file. A look at a directory that does not exist raises FileNotFoundError. A look leaves every directory as it was.", "quantifier": "every schedule of creating, joining, working, killed and looking processes; every directory; every stored value", "why_tests_cant": "A test interleaves one reader and one writer at a few points; the claim is about every interleaving and kill point.", "anchors": ["neps/state/filebased.py:load_filebased_neps_state", "neps/state/protocols.py:Synced.load", "neps/state/protocols.py:VersionedResource.load", "neps/state/filebased.py:FileLocker.lock", "neps/status/status.py:get_summary_dict", "neps/utils/cli.py:load_neps_errors"]}
{"id": "C129", "title": "The confidence in the prior decides how tightly configurations are sampled around the defaults", "statement": "An optimizer of the successive halving family that is given `prior_confidence` draws float parameters from a normal distribution around the default whose standard deviation is 0.5, 0.25, 0.125 or 0.05 of the range (on the parameter's scale) for low, medium, high and ultra, and gives the default of a categorical parameter 2, 4, 6 or 8 times the probability of another choice; more confidence never spreads wider. Fidelities, constants, bounds, defaults and values are left alone, doing it again changes nothing, and an unknown level is an error. (It does not reach integer parameters, nor the densities PriorBand weighs samples with, and it overrides the user's own confidence.)", "quantifier": "all search spaces, levels of confidence, defaults and draws", "why_tests_cant": "the draws are continuous and the spaces unbounded; a test sees a few samples of one space", "anchors": ["neps/optimizers/multi_fidelity/successive_halving.py:SuccessiveHalvingBase._enhance_priors", "neps/search_spaces/hyperparameters/float.py:FloatParameter.sample_value", "neps/search_spaces/hyperparameters/integer.py:IntegerParameter.sample_value", "neps/search_spaces/hyperparameters/categorical.py:CategoricalParameter.sample_value"]}
{"id": "C13", "title": "max_evaluations_total bounds the trials evaluated", "statement": "With W workers and max_evaluations_total = N at most N + W - 1 trials are ever started; with one worker at most N; the bound N itself is not respected by several workers.", "quantifier": "all N, W and interleavings", "why_tests_cant": "needs the worst case schedule over all W", "anchors": ["neps/runtime.py:DefaultWorker._check_if_should_stop"]}
{"id": "C130", "title": "Where a new configuration comes from", "statement": "If priors are used and `sample_default_first` is set, the first configuration consists of the defaults, evaluated at the lowest budget or, if asked for, at the highest. Every other new configuration is a sample of the space at the lowest budget; over the random numbers, a share of exactly (1 - random_interleave_prob) times the share of the policy is sampled from the prior. Without priors the defaults have no influence on the values proposed. (A space in which only some parameters have defaults makes the first call raise.)", "quantifier": "all search spaces, options, random numbers and histories", "why_tests_cant": "a share over real random numbers is a measure, not a count over a few runs, and the independence of the defaults ranges over pairs of spaces", "anchors": ["neps/optimizers/multi_fidelity/successive_halving.py:SuccessiveHalvingBase.get_config_and_ids", "neps/optimizers/multi_fidelity/successive_halving.py:SuccessiveHalvingBase.sample_new_config", "neps/optimizers/multi_fidelity/sampling_policy.py:FixedPriorPolicy.sample", "neps/optimizers/multi_fidelity/sampling_policy.py:RandomUniformPolicy.sample"]}
{"id": "C131", "title": "Workers that run together come to an end", "statement": "Any number of workers that share a directory and have a limit on the number of evaluations come to an end, however their steps interleave, whatever the optimizer and the objective do and whichever workers are killed. With max_evaluations_per_run for each worker, or max_evaluations_total for all of them (whether trials in progress count or not), there is a bound on the number of steps the workers can take together. So in every endless schedule in which each worker gets its turn again and again, each of them returns, raises or is killed. A worker that stops because of max_evaluations_total = N leaves at least N counted evaluations. With that as the only limit, a fair schedule ends with N counted evaluations unless every single worker was killed or died of an exception. Lost claims and second claims of a trial cannot keep the workers busy forever.", "quantifier": "all numbers of workers, settings with one of the two limits, proposals, results, clocks, listing orders, kills (also inside the creation of a trial) and interleavings; all endless fair schedules", "why_tests_cant": "A test runs a few schedules until a timeout. That no schedule keeps the workers going forever is a statement about infinitely many infinite executions, and needs a measure that goes down with every step of every worker.", "anchors": ["neps/runtime.py:DefaultWorker.run", "neps/runtime.py:DefaultWorker._check_if_should_stop", "neps/state/neps_state.py:NePSState.get_next_pending_trial", "neps/state/filebased.py:TrialRepoInDirectory.pending", "neps/api.py:run"]}
{"id": "C132", "title": "What the package says about its searchers", "statement": "`SearcherConfigs.get_searchers` lists exactly the searchers that `neps.run` accepts by name, `get_available_algorithms` the algorithms they use, each once, `get_searcher_from_algorithm` exactly the searchers that use the algorithm, and `get_searcher_kwargs` gives the settings of the searcher that was asked for and raises for a name that is none, in whatever order the file system lists the files.", "quantifier": "all contents of the folder of searchers, all orders in which the file system lists it, all names", "why_tests_cant": "The order of a directory listing is up to the file system; a test sees one order.", "anchors": ["neps/optimizers/info.py:SearcherConfigs.get_searchers", "neps/optimizers/info.py:SearcherConfigs.get_available_algorithms", "neps/optimizers/info.py:SearcherConfigs.get_searcher_from_algorithm", "neps/optimizers/info.py:SearcherConfigs.get_searcher_kwargs"]}
{"id": "C133", "title": "Samplers that are asked for integers sample all of the domain", "statement": "Whatever type a sampler is asked for, each of its points consists of values of the target domains, and for ranges of integers every combination of values can come up; this also holds for a mixture of samplers that is asked for no type.", "quantifier": "all lists of integer domains, all draws, all centers of a prior, all requested types, all mixtures", "why_tests_cant": "A test that looks at a few samples sees legal values; that most values can never come up is a statement about all draws.", "anchors": ["neps/sampling/samplers.py:Sobol.sample", "neps/sampling/samplers.py:WeightedSampler.sample", "neps/sampling/samplers.py:BorderSampler.sample", "neps/sampling/priors.py:UniformPrior.sample", "neps/sampling/priors.py:CenteredPrior.sample"]}
{"id": "C134", "title": "Equality of hyperparameters and search spaces", "statement": "`==` on hyperparameters and on search spaces is an equivalence relation. Equal hyperparameters have the same declaration, default, prior flag and value; they accept and reject the same values, defaults and confidences and stay equal afterwards; with the same random numbers they sample the same value. A copy is equal to its original. Equal search spaces have the same names.", "quantifier": "all hyperparameters that some sequence of calls can produce, all values and confidences, all random draws, all search spaces", "why_tests_cant": "Equality is compared on a few literals in tests; that no sequence of calls separates equal parameters, and that no draw does, ranges over all histories and draws.", "anchors": ["neps/search_spaces/hyperparameters/numerical.py:NumericalParameter.__eq__", "neps/search_spaces/hyperparameters/categorical.py:CategoricalParameter.__eq__", "neps/search_spaces/hyperparameters/constant.py:ConstantParameter.__eq__", "neps/search_spaces/search_space.py:SearchSpace"]}
{"id": "C135", "title": "Workers that keep opened trials in memory behave like workers that always read the disk", "statement": "A worker keeps every trial it has opened, and reads its files again only if the stored version has changed. Nobody can tell: whatever several workers do, in any interleaving and with any crashes, could have been done in the same turns by workers that read the files each time, with the same stored trials, budget, error log, evaluations and outcomes; and whenever a worker asks for a trial it keeps, it gets exactly what is stored. So all guarantees about shared runs (nothing lost, limits, budget) hold for the workers as they are. This includes that a worker that did not get the lock of a trial in time is left with a correct view of that trial.", "quantifier": "all numbers of workers, settings, interleavings of opening, syncing, claiming, evaluating and reporting, crash points, lock timeouts", "why_tests_cant": "The wrong view appears only if another worker changes the files between two particular reads, or if a lock times out after the object in memory has been changed; tests run one worker or do not control the order.", "anchors": ["neps/state/filebased.py:TrialRepoInDirectory.get_by_id", "neps/state/filebased.py:TrialRepoInDirectory.all", "neps/state/protocols.py:VersionedResource.sync_and_get", "neps/runtime.py:DefaultWorker.run", "neps/state/filebased.py:FileLocker.lock"]}
{"id": "C136", "title": "A searcher given by the user is the one that is used", "statement": "If neps.run is given an optimizer object, exactly this object proposes the configurations. If it is given a class of optimizers, the class is called with the space of the run and exactly the given arguments for the searcher, where those of the call win over those of the YAML file, and the run information names the class and says that the user chose it; any other class is rejected. As for the searchers of the package, the space can be given as a file, and the limit and the settings for failed evaluations reach the optimizer.", "quantifier": "all calls of neps.run and YAML files, all objects, classes, spaces and arguments", "why_tests_cant": "The paths for own searchers differ from those of the package and are taken only by particular combinations of call and file; tests try one or two.", "anchors": ["neps/api.py:run", "neps/utils/run_args.py:Settings", "neps/optimizers/base_optimizer.py:BaseOptimizer"]}
{"id": "C137", "title": "What the optimizer is told about the budget", "statement": "Whenever the optimizer is asked for a configuration, the budget it is shown states the cost and evaluation limits of the run and exactly what the reported evaluations have used so far, in every process, after restarts and failed requests; the optimizer cannot change it; and what an optimizer asks to be kept between calls is stored without damage and given back.", "quantifier": "every history of calls of neps.run with any limits, requests with any optimizer answer (including exceptions and any value to keep), and reports with any cost, by any number of processes in any order", "why_tests_cant": "It is a statement about all interleavings of launches, requests and reports of several processes that hold copies of a shared file; a test can only try a few of them.", "anchors": ["neps/state/optimizer.py:BudgetInfo", "neps/state/optimizer.py:OptimizationState", "neps/state/filebased.py:ReaderWriterOptimizationState", "neps/state/neps_state.py:NePSState.sample_trial", "neps/state/neps_state.py:NePSState.report_trial_evaluation", "neps/runtime.py:_launch_runtime"]}
{"id": "C138", "title": "Processes do not block each other for ever", "statement": "Whatever workers and readers of a run directory do, in any order and with any exceptions and kills: a lock has one owner, no process holds a lock while the objective runs or after an operation has ended, the optimizer is asked by one process at a time, and the processes never wait for each other in a circle: everything that was begun can be finished without a lock timing out.", "quantifier": "every number of processes, every schedule of their operations (creating, sweeping, sampling, claiming, evaluating, reporting, status, CSV files) with any trials, every point of an exception, timeout or kill", "why_tests_cant": "Deadlocks depend on the interleaving of several processes; tests with a few workers do not reach them.", "anchors": ["neps/state/protocols.py:Synced", "neps/state/filebased.py:FileLocker", "neps/state/neps_state.py:NePSState.sample_trial", "neps/state/neps_state.py:NePSState.report_trial_evaluation", "neps/status/status.py:post_run_csv"]}
{"id": "C139", "title": "The prior of an architecture of a constrained grammar is the probability of sampling it", "statement": "For a grammar with a constraint, compute_prior of a parse tree that the constraint permits is the product, over all nodes, of the probability with which sampler(user_priors=True) chooses the production of that node: the user's probability of the production, rescaled to the productions that the constraint has not excluded at that place. With log=True it is the logarithm of this number (up to the 1e-12 that is added to every factor). A tree the constraint excludes has no probability.", "quantifier": "Every constrained grammar with readable symbols, every accepted prior, every constraint function and constraint object, and every parse tree of any size and depth.", "why_tests_cant": "The value depends on the whole tree and on answers of a user function to unboundedly many histories; the stack, the candidate filtering and the per-depth bookkeeping have to be right for every nesting.", "anchors": ["neps/search_spaces/architecture/cfg_variants/constrained_cfg.py: ConstrainedGrammar.compute_prior", "neps/search_spaces/architecture/cfg_variants/constrained_cfg.py: ConstrainedGrammar._constrained_sampler", "neps/search_spaces/architecture/cfg_variants/constrained_cfg.py: ConstrainedGrammar._get_not_allowed_productions"]}
{"id": "C14", "title": "No evaluation starts once max_cost_total is spent", "statement": "A worker that is the only active one (whatever other workers did to the directory before) calls the objective only while the sum of the costs of the reports on disk is below max_cost_total. The one exception is a reported cost of NaN, which switches the limit off.", "quantifier": "all histories of other workers, all cost sequences, all limits", "why_tests_cant": "all cost sequences", "anchors": ["neps/runtime.py:DefaultWorker._check_if_should_stop"]}
{"id": "C140", "title": "The settings given to a run reach the optimizer", "statement": "If neps.run builds an optimizer of the package, the optimizer has every setting that was given as a keyword argument, the value in the searcher's file for the settings that were not given, and the default of its class for the rest; Hyperband-like optimizers have exactly one bracket per possible stopping rate, each with the same settings. The optimizer knows the cost limit and the values to use for failed evaluations. Building it fails exactly if a given name is not a parameter of the class or a value is not valid for the search space, never because of something in the package's own files.", "quantifier": "all searchers of the package, all settings given by the user (known or not, valid or not), all search spaces", "why_tests_cant": "There are thirteen classes with up to five constructors in a row that hand over some twenty settings by name, and a test with particular values cannot show that no setting is dropped or swapped on the way for other values.", "anchors": ["neps/api.py:_run_args", "neps/optimizers/base_optimizer.py:BaseOptimizer.__init__", "neps/optimizers/multi_fidelity/successive_halving.py:SuccessiveHalvingBase.__init__", "neps/optimizers/multi_fidelity/hyperband.py:HyperbandBase.__init__", "neps/optimizers/multi_fidelity_prior/priorband.py:PriorBand.__init__", "neps/optimizers/multi_fidelity_prior/async_priorband.py:PriorBandAshaHB.__init__", "neps/optimizers/multi_fidelity/ifbo.py:IFBO.__init__", "neps/optimizers/random_search/optimizer.py:RandomSearch.__init__", "neps/optimizers/bayesian_optimization/optimizer.py:BayesianOptimization.__init__", "neps/optimizers/grid_search/optimizer.py:GridSearch.__init__"]}
{"id": "C141", "title": "Several runs in one process do not mix", "statement": "A process may call neps.run any number of times, one after the other, in try blocks or from within objectives. Code called from an objective always finds the trial which is evaluated there and the state of the run which evaluates it, and finds no trial outside of evaluations. Every trial stored as being evaluated is evaluated and reported. Every callback registered for the end of trials is called exactly once for each evaluated trial, before its result is reported, and never otherwise.", "quantifier": "all programs that call neps.run, register callbacks, raise, catch or are interrupted at any point, any number of runs, evaluations and notebook cells", "why_tests_cant": "The functions find the run through global variables; whether these are right depends on everything the process did before, including nested runs and interrupts.", "anchors": ["neps/runtime.py:get_in_progress_trial", "neps/runtime.py:get_workers_neps_state", "neps/runtime.py:register_notify_trial_end", "neps/runtime.py:_set_global_trial", "neps/runtime.py:DefaultWorker.run", "neps/utils/common.py:load_checkpoint", "neps/utils/common.py:save_checkpoint"]}
{"id": "C142", "title": "The operations of an architecture are created with the right arguments", "statement": "to_pytorch creates exactly one operation for each edge of the (flat, pruned) graph of the architecture. Its arguments are the ones declared for its primitive, overwritten by what set_recursive_attribute returns for its name and the final attributes of the first operation that leads to it (None at the input). These attributes do not depend on anything else. If it is possible at all that numbers of channels handed over this way fit, then every operation is created with the number of channels that every operation before it gives.", "quantifier": "all acyclic graphs with one input, all topological orders, all rules of the user (also raising ones), all declared attributes and classes", "why_tests_cant": "The attributes of an operation depend on all operations before it and on the order in which networkx lists nodes and predecessors; examples cover a few small cells.", "anchors": ["neps/search_spaces/architecture/api.py:_build", "neps/search_spaces/architecture/api.py:ArchitectureParameter", "neps/search_spaces/architecture/graph.py:Graph.compile", "neps/search_spaces/architecture/graph.py:EdgeData", "neps/search_spaces/architecture/topologies.py:AbstractTopology.create_graph"]}
{"id": "C143", "title": "neps init writes run arguments that neps.run accepts", "statement": "`neps init` never changes a file that exists. Otherwise it makes exactly one file, `run_config.yaml` or the one given with `--config-path`, with the chosen template. Once the function, the directory and the empty bounds and limits of the template are filled in, `neps.run(run_args=...)` accepts the file and the run has exactly the settings and the search space written there, with defaults for entries left empty; and the other commands, called without a directory, find the directory that was filled in. With `--state-machine` and an existing file the state of the run is created.", "quantifier": "all options of the command, all contents of the file system, all function locations, bounds, directories and limits that are filled in", "why_tests_cant": "A test fills in one set of values; the claim is about every file system and everything a user may fill in.", "anchors": ["neps/utils/cli.py: init_config, main", "neps/utils/run_args.py: get_run_args_from_yaml, Settings", "neps/search_spaces/search_space.py: pipeline_space_from_yaml"]}
{"id": "C144", "title": "Sampling while other workers go on", "statement": "While one worker samples a new configuration, the other workers may claim trials and store results. The optimizer is then asked with every trial that is stored, each exactly once, and each as it was stored at some moment while the sampling worker held the lock of the optimizer state. What it sees need not be what was stored at any single moment: it can contain a result and miss an earlier one. Nevertheless the guarantees of the multi-fidelity optimizers hold: the stored trials are a history of the optimizer, promotions continue finished trials, numbering has no gaps, brackets keep their quota and promote the best, and every sampling stores exactly one new trial.", "quantifier": "every optimizer (first part) and every multi-fidelity optimizer (second part), every number of workers, every interleaving of the single reads with the steps of the others, kills at every point", "why_tests_cant": "Tests sample in one process or let workers run freely; that a result arrives between two reads of one sampling depends on timing, and the number of interleavings is unbounded", "anchors": ["neps/state/neps_state.py:NePSState.sample_trial", "neps/state/neps_state.py:NePSState.report_trial_evaluation", "neps/state/filebased.py:TrialRepoInDirectory.all", "neps/optimizers/multi_fidelity/hyperband.py", "neps/optimizers/multi_fidelity/successive_halving.py"]}
{"id": "C145", "title": "Configurations that are being evaluated count exactly once in the acquisition function", "statement": "When the next configuration is chosen by Bayesian optimization while others are being evaluated, the acquisition value of a candidate is one number: the joint value of the candidate and of every configuration that is being evaluated, each counted exactly once and each weighted by the prior or the predicted cost at its own place. Among candidates the surrogate finds equally promising, a likelier or cheaper one is never ranked lower. (With a prior and costs together the value exists only while nothing is being evaluated.)", "quantifier": "Every sample-reducing acquisition function, every set of pending configurations, every candidate, prior, exponent, cost model and share of the budget", "why_tests_cant": "The pending configurations are moved between nested acquisition objects and the values are broadcast; a test fixes one nesting and one number of pending configurations", "anchors": ["neps/optimizers/bayesian_optimization/acquisition_functions/weighted_acquisition.py:WeightedAcquisition", "neps/optimizers/bayesian_optimization/acquisition_functions/pibo.py:pibo_acquisition", "neps/optimizers/bayesian_optimization/acquisition_functions/cost_cooling.py:cost_cooled_acq", "neps/optimizers/bayesian_optimization/models/gp.py:fit_and_acquire_from_gp"]}
{"id": "C146", "title": "The surrogate compares configurations parameter by parameter", "statement": "The Gaussian process of Bayesian optimization compares two configurations in every parameter exactly once: categories by being the same choice, everything else by distance. Its covariance is symmetric; a configuration that is closer in every parameter is at least as similar, strictly more if it is closer in one; only a configuration with the same values is as similar as the configuration itself. Numbering the choices of a categorical parameter differently or writing the parameters in another order changes nothing.", "quantifier": "Every set of numerical and categorical parameters, every pair or triple of encoded configurations and all positive length and output scales", "why_tests_cant": "Which columns a kernel sees depends on the mixture of parameters and their alphabetical order; a test samples a few spaces and points", "anchors": ["neps/optimizers/bayesian_optimization/models/gp.py:make_default_single_obj_gp", "neps/optimizers/bayesian_optimization/models/gp.py:default_categorical_kernel", "neps/search_spaces/encoding.py:ConfigEncoder"]}
{"id": "C147", "title": "Workers that get in each other's way still do the job", "statement": "If several workers with max_evaluations_total as the only limit run on one directory, none of them is killed, the optimizer answers and the results of the objective can be understood, then in the end there are at least that many trials, every one of them has been evaluated, and at least one call of neps.run has returned without an exception. Single workers may die of conflicts with others, but the worker that took up the latest trial never does, and no trial gets lost unless a worker is killed with it.", "quantifier": "all numbers of workers, all limits, all interleavings of the steps of the workers, all fair endless schedules, all answers of the optimizer and results of the objective", "why_tests_cant": "races between workers depend on the interleaving of file operations; a test sees a few schedules", "anchors": ["neps/runtime.py:DefaultWorker.run", "neps/state/neps_state.py:NePSState.get_next_pending_trial", "neps/state/neps_state.py:NePSState.put_updated_trial", "neps/state/neps_state.py:NePSState.report_trial_evaluation"]}
{"id": "C148", "title": "A grid search evaluates the whole grid", "statement": "In a run with grid search and a seed, the trials are the points of the shuffled grid in order, each point at most once, whatever the workers do and whenever they are killed. If max_evaluations_total is the size of the grid and no worker is killed, any number of workers evaluate every point of the grid.", "quantifier": "all grids, shuffles, seeds, numbers of workers, schedules and crash points; for the second part all fair endless schedules without kills", "why_tests_cant": "needs every interleaving of sampling and evaluation; a test runs one worker to the end", "anchors": ["neps/optimizers/grid_search/optimizer.py:GridSearch.ask", "neps/state/neps_state.py:NePSState.sample_trial", "neps/runtime.py:DefaultWorker.run"]}
{"id": "C149", "title": "Runs reach the number of evaluations they are asked for", "statement": "Any number of workers that share max_evaluations_total = N as their only limit and are not killed end, in every fair schedule, with at least N trials all of which have been evaluated, and at least one of them returns from neps.run: with random search, Bayesian optimization, successive halving, ASHA, hyperband and asynchronous hyperband. Losing races against each other, promotions and waiting for running trials do not stop a run.", "quantifier": "all numbers of workers, limits, fair endless schedules, listing orders, generator states, objectives whose results can be understood and configurations of the optimizers", "why_tests_cant": "a liveness property of all schedules; a test sees one finite schedule", "anchors": ["neps/runtime.py:DefaultWorker.run", "neps/state/neps_state.py:NePSState.sample_trial", "neps/optimizers/random_search/optimizer.py:RandomSearch.ask", "neps/optimizers/bayesian_optimization/optimizer.py:BayesianOptimization.ask", "neps/optimizers/multi_fidelity/hyperband.py:HyperbandBase.ask", "neps/optimizers/multi_fidelity/successive_halving.py:SuccessiveHalvingBase.ask"]}
{"id": "C15", "title": "Error policy", "statement": "With ignore_errors=True an error in any evaluation never makes any worker stop or raise; with ignore_errors=False a worker raises at its next check as soon as it has had an error, and as soon as any other worker has recorded an error unless one of its own limits stops it at that same check; STOP_* policies return instead of raising; *_WORKER_* policies never react to another worker's error.", "quantifier": "all worker states, settings, trial sets and error logs", "why_tests_cant": "decision table over an unbounded state", "anchors": ["neps/runtime.py:DefaultWorker._check_if_should_stop", "neps/runtime.py:_launch_runtime"]}
{"id": "C150", "title": "The exception of a lock that is not free in time names that lock", "statement": "If a process gives up waiting for a lock file, the exception it raises says in its message which lock file it was and which timeout applied to it; other exceptions pass unchanged.", "quantifier": "all interleavings of any number of processes, all operations, all timeouts", "why_tests_cant": "which locks a process holds while it waits for another depends on the operation and on the schedule; a test would have to let a lock time out at every point", "anchors": ["neps/state/filebased.py:FileLocker.lock", "neps/state/neps_state.py:NePSState.sample_trial", "neps/env.py"]}
{"id": "C151", "title": "Environment variables configure the waiting for locks", "statement": "For each of the five kinds of lock, the polling interval and the timeout are what its two environment variables say: 0.05 and 120 seconds if unset, the number if it is one, and for a timeout None if the text is none, n or null in whatever case. Importing neps fails exactly if a variable has a text that cannot be understood. The list of variables in the message of a timeout shows each once with its text and value. A variable concerns no other kind of lock.", "quantifier": "all environments", "why_tests_cant": "all texts of ten variables", "anchors": ["neps/env.py:get_env", "neps/env.py:is_nullable"]}
{"id": "C152", "title": "neps errors shows the evaluations that failed", "statement": "The command prints one block per error, in the order in which the workers recorded them, with the trial, the worker, the type, the message and the traceback; every trial whose state is crashed is among them, nothing is listed that was not reported, and a directory without a run is not mistaken for a run without errors.", "quantifier": "all interleavings of any number of workers, all errors and kills", "why_tests_cant": "unbounded histories with kills at any point", "anchors": ["neps/utils/cli.py:load_neps_errors", "neps/state/neps_state.py:NePSState.get_errors", "neps/state/err_dump.py:ErrDump"]}
{"id": "C153", "title": "The plot of learning curves shows every evaluation once, in its place", "statement": "For a run of a multi-fidelity optimizer, Plotter3D.plot3D draws each evaluation of summary_csv/config_data.csv exactly once: one line (or one point, if there is a single evaluation) per configuration, consisting of its evaluations in the order in which they were started, at their fidelity and loss, coloured by their place in the order of all starts; the configurations come in the order of their first evaluation, and the footnote counts them, with those evaluated at several and at one budget. The flat plot and the plot in space agree.", "quantifier": "every table of evaluations with ids config_level, any number of configurations, levels, losses and start times, missing losses and times included; with and without scatter", "why_tests_cant": "A test looks at the picture of one run; grouping, order and the shift of levels must be right for every set of evaluations, in whatever order they were started and written.", "anchors": ["neps/plot/plot3D.py: Plotter3D.prep_df, Plotter3D.plot3D, Plotter3D.get_x, get_z, get_color"]}
{"id": "C154", "title": "The random number generators are stored and restored exactly", "statement": "When a worker stores the state of the random number generators in the run directory and any worker, on any machine, restores it later, then the generators of python, numpy and torch (CPU and CUDA) are exactly as they were when they were stored, to the last bit and including the cached Gaussian numbers, whatever was in the directory before and whatever the restoring process has drawn in the meantime. A worker killed while storing leaves the old or the new state. Two snapshots are equal exactly if all their generators are.", "quantifier": "every state of the generators (any 32-bit words), every previous content of the directory, every process that restores, any number of CUDA devices on each machine, every point at which the storing process is killed", "why_tests_cant": "A test stores and restores on one machine with one seed; the bytes of every state, the mixtures of machines and the points of a kill cannot be enumerated.", "anchors": ["neps/state/seed_snapshot.py: SeedSnapshot.recapture, set_as_global_seed_state, __eq__", "neps/state/filebased.py: ReaderWriterSeedSnapshot.read, write"]}
{"id": "C155", "title": "The mutating sampler proposes the best candidate of a pool of mutants of the best configurations", "statement": "MutationSampler makes a pool of the size asked for: different mutants of the configurations with the least losses, in equal shares and none equal to its parent, filled up with random samples. It proposes a candidate of the pool with the largest value of the acquisition function; a batch has as many candidates as asked for, each at most once, none worse than one that is left out (except for candidates with equal values), with different values if there are as many. It fails only if the pool is smaller than the batch or random sampling fails.", "quantifier": "every set of observed configurations and losses, every acquisition function, all settings the sampler accepts, all outcomes (failures included) of mutations and random samples, every batch size", "why_tests_cant": "Which mutations fail or repeat is random; ties, exhausted patience, and small pools come together in combinations no test enumerates.", "anchors": ["neps/optimizers/bayesian_optimization/acquisition_samplers/mutation_sampler.py: MutationSampler.create_pool, sample_batch, sample, _propose_location", "neps/optimizers/bayesian_optimization/acquisition_samplers/random_sampler.py: RandomSampler.sample"]}
{"id": "C156", "title": "The acquisition function is the expected improvement", "statement": "With the acquisition function EI every candidate is valued by the expectation, under the normal distribution that the surrogate model predicts for it (at the maximal fidelity if asked for), of the amount by which its loss would fall below the incumbent less xi; the values are not negative, and a candidate with lower mean and greater variance is not valued less. The incumbent is the least loss observed, or with in_fill='posterior' the best posterior mean. LogEI does the same for logarithms of losses, the augmented variant multiplies by a factor in [0, 1) that grows with the variance, and the confidence bound is the mean with sqrt(beta) standard deviations in the favourable direction, with beta updated from the state.", "quantifier": "all surrogate models, lists of candidates, incumbents, settings and observed losses", "why_tests_cant": "The claim equates a closed formula with an integral for all real means and variances; a test compares numbers at a few points.", "anchors": ["neps/optimizers/bayesian_optimization/acquisition_functions/ei.py::ComprehensiveExpectedImprovement.eval", "neps/optimizers/bayesian_optimization/acquisition_functions/ei.py::ComprehensiveExpectedImprovement.set_state", "neps/optimizers/bayesian_optimization/acquisition_functions/ucb.py::UpperConfidenceBound", "neps/optimizers/bayesian_optimization/acquisition_functions/__init__.py::AcquisitionMapping"]}
{"id": "C157", "title": "A prior-weighted acquisition function prefers what the prior prefers, ever less so", "statement": "Weighting an acquisition function with the user's prior keeps the order of equally plausible candidates, of equally valued candidates prefers the one that the prior finds more plausible, and lets the prior fade with the number of observed configurations (with a fidelity: those observed at the maximal fidelity), so that finally the acquisition value alone decides.", "quantifier": "all lists of candidates, acquisition values, densities, exponents and numbers of observations", "why_tests_cant": "an order relation over all real values and a limit over the number of observations", "anchors": ["neps/optimizers/bayesian_optimization/acquisition_functions/prior_weighted.py::DecayingPriorWeightedAcquisition.eval", "neps/optimizers/bayesian_optimization/acquisition_functions/prior_weighted.py::DecayingPriorWeightedAcquisition.set_state"]}
{"id": "C158", "title": "Copies of an edge of an architecture share its shared items and nothing else", "statement": "However edges are created, copied, cloned and changed: an item that is set is read back; private items of an edge are never changed by another edge; a shared item is common to exactly the edges that are copies of each other, and a clone shares nothing; a refused operation changes nothing; every edge has an operation, which is private.", "quantifier": "all histories of creating, copying, cloning, setting, updating and removing, on any number of edges", "why_tests_cant": "aliasing depends on the whole history of copies; a test looks at a few histories", "anchors": ["neps/search_spaces/architecture/graph.py::EdgeData.set", "neps/search_spaces/architecture/graph.py::EdgeData.copy", "neps/search_spaces/architecture/graph.py::EdgeData.clone", "neps/search_spaces/architecture/graph.py::EdgeData.update", "neps/search_spaces/architecture/graph.py::EdgeData.remove", "neps/search_spaces/architecture/graph.py::EdgeData.to_dict"]}
{"id": "C159", "title": "Architectures of nested topologies can be built", "statement": "Applying one of the predefined topologies to its operations gives a graph with the topology's name and scope, the nodes of its edges and the operations in order, whether the operations are primitive operations or again topologies; composing an architecture out of topologies therefore succeeds for every nesting, and such a graph can be compiled.", "quantifier": "all edge lists, all lists of operations and all finite nestings of topologies", "why_tests_cant": "A test builds particular architectures; the failure depends on the shape of the nesting, and the project's own architecture examples are switched off.", "anchors": ["neps/search_spaces/architecture/graph.py:Graph.set_scope", "neps/search_spaces/architecture/graph.py:Graph._get_child_graphs", "neps/search_spaces/architecture/graph.py:Graph.compile", "neps/search_spaces/architecture/topologies.py:AbstractTopology.create_graph", "neps/search_spaces/architecture/core_graph_grammar.py:CoreGraphGrammar._compose_functions"]}
{"id": "C16", "title": "Trial life cycle", "statement": "Along any run a trial's state only moves PENDING -> EVALUATING -> one of SUCCESS / FAILED / CRASHED; a trial has a report exactly when it is in one of the last three, and the report names the trial and the way it ended.", "quantifier": "all interleavings of any number of workers", "why_tests_cant": "inductive invariant of an unbounded system", "anchors": ["neps/state/trial.py:Trial", "neps/state/trial.py:State", "neps/runtime.py:DefaultWorker.run"]}
{"id": "C160", "title": "The predefined operations can be constructed and exchanged for one another", "statement": "Each predefined primitive operation can be constructed with its documented arguments. Declared with stride s from c_in to c_out channels it turns every image with c_in channels of size h x w into one with c_out channels of size ceil(h/s) x ceil(w/s), so two operations with the same stride and channels can take each other's place at an edge, what arrives at a node can be added or concatenated, and a sequence of operations has the product of the strides.", "quantifier": "all operations, all kernel sizes, strides, paddings and channels, all image sizes and all sequences", "why_tests_cant": "Tests build networks for one image size and one set of arguments; sizes that are not a multiple of the stride and rarely used arguments behave differently.", "anchors": ["neps/search_spaces/architecture/primitives.py:AbstractPrimitive", "neps/search_spaces/architecture/primitives.py:Identity", "neps/search_spaces/architecture/primitives.py:Zero", "neps/search_spaces/architecture/primitives.py:Zero1x1", "neps/search_spaces/architecture/primitives.py:SepConv", "neps/search_spaces/architecture/primitives.py:DilConv", "neps/search_spaces/architecture/primitives.py:Stem", "neps/search_spaces/architecture/primitives.py:Sequential", "neps/search_spaces/architecture/primitives.py:MaxPool", "neps/search_spaces/architecture/primitives.py:MaxPool1x1", "neps/search_spaces/architecture/primitives.py:AvgPool", "neps/search_spaces/architecture/primitives.py:AvgPool1x1", "neps/search_spaces/architecture/primitives.py:ReLUConvBN", "neps/search_spaces/architecture/primitives.py:ConvBnReLU", "neps/search_spaces/architecture/primitives.py:ConvBn", "neps/search_spaces/architecture/primitives.py:Concat1x1", "neps/search_spaces/architecture/primitives.py:ResNetBasicblock"]}
{"id": "C161", "title": "ifBO's surrogate model is complete when it is used", "statement": "When ifBO asks for its pretrained surrogate model, it gets a directory that contains the complete model of the requested version, whatever other processes with the same working directory do at the same time and at whatever point processes were killed while downloading or unpacking it; only a server that does not answer makes the call fail.", "quantifier": "all sizes of the model, all numbers of processes, all interleavings of their steps, all points at which they are killed, all answers of the server", "why_tests_cant": "The outcome depends on where a download is interrupted and on the interleaving of two processes; a test has the model already or downloads it once.", "anchors": ["neps/optimizers/bayesian_optimization/models/ftpfn.py:_download_workaround_for_ifbo_issue_10", "neps/optimizers/bayesian_optimization/models/ftpfn.py:FTPFNSurrogate"]}
{"id": "C162", "title": "Overwriting a run starts a new one", "statement": "A worker started with overwrite_working_directory=True finds an empty run and starts a new one: no configuration and no result of the old run is stored in it, whatever workers of the old run that are still alive do; the workers of the new run can sample and store their results; and its configurations come from the search space the new workers were given.", "quantifier": "every history of starts of workers with and without overwrite_working_directory, attempts to get a trial under any id, ends of evaluations and kills, with any number of processes", "why_tests_cant": "A test overwrites a finished run; the property is about workers of the old run that are still idle or evaluating at the moment of the deletion and about everything they do afterwards.", "anchors": ["neps/runtime.py:_launch_runtime", "neps/runtime.py:DefaultWorker.run", "neps/state/neps_state.py:NePSState.report_trial_evaluation", "neps/state/filebased.py:TrialRepoInDirectory", "neps/state/filebased.py:FileLocker.lock", "neps/state/protocols.py:VersionedResource.put"]}
{"id": "C163", "title": "Continuing a run with another search space", "statement": "If a multi-fidelity run is continued with a search space other than the one it was started with, the searcher either refuses to continue or every configuration it promotes is a complete and legal configuration of the new search space: a stored configuration with an unknown name, or with an illegal value for a float, categorical or constant parameter, makes it refuse; values that are handed out are legal in the new space; a stored configuration that is complete and legal in it is promoted unchanged but for the budget. It does not hold for a search space with a new parameter: the run is continued and promoted configurations hold None for it.", "quantifier": "all search spaces, all stored configurations (any number, any names and values), all budgets that are legal for the fidelity", "why_tests_cant": "The old and the new search space and the history can be anything; a test fixes one pair of spaces.", "anchors": ["neps/optimizers/multi_fidelity/successive_halving.py: ask, get_config_and_ids", "neps/optimizers/multi_fidelity/hyperband.py: ask", "neps/search_spaces/search_space.py: SearchSpace.from_dict, SearchSpace.clone, hp_values", "neps/state/filebased.py: create_or_load_filebased_neps_state"]}
{"id": "C164", "title": "Asynchronous Hyperband draws brackets in proportion", "statement": "Each time it is asked, asynchronous Hyperband (also as MOBSTER and as PriorBand with ASHA-Hyperband) draws one of its existing brackets, whatever number the random generator gives. Every bracket has a positive probability, the probabilities sum up to one, bracket s is drawn for an interval of random numbers as long as its probability, the expected budgets of all brackets are the same (a configuration of bracket s costs eta^s per rung and the bracket has max_rung - s + 1 rungs), and for eta of at least two a bracket that starts at a smaller budget is never less probable than one that starts at a larger budget.", "quantifier": "all eta of at least one, all numbers of rungs, all drawn numbers", "why_tests_cant": "A test can sample a few draws for a few settings; it settles neither the probabilities nor that no drawn number leads outside of the brackets.", "anchors": ["neps/optimizers/multi_fidelity/hyperband.py: AsynchronousHyperband._get_bracket_to_run", "neps/optimizers/multi_fidelity_prior/async_priorband.py: PriorBandAshaHB._get_bracket_to_run"]}
{"id": "C165", "title": "The surrogate model of ifBO is loaded once and is the right one", "statement": "Within a process, ifBO uses a surrogate model that was loaded from the directory and in the version it is configured with, whatever runs came before; it loads at most one model for each directory and version, runs that agree on these share it, runs that do not never do, and a failed attempt does not prevent a later one. The model is on the requested device for the first run that loads it. It does not hold for later runs, which get the device of the first, and a model that the process holds cannot be used when the files of the default directory are gone.", "quantifier": "all sequences of calls in a process, with any directories, versions, devices, working directories and failures", "why_tests_cant": "The result of a call depends on all earlier calls of the process; tests start with a fresh process or a mocked model.", "anchors": ["neps/optimizers/bayesian_optimization/models/ftpfn.py: FTPFNSurrogate.__init__, _CACHED_FTPFN_MODEL", "neps/optimizers/multi_fidelity/ifbo.py: IFBO.ask"]}
{"id": "C166", "title": "ifBO proposes also when a single configuration can be continued", "statement": "Once the initial design is used up, ifBO compares the configurations that can be continued with new samples and proposes one of them, however many there are; in particular also when there is exactly one. The pending trials, however many, are given fantasised values.", "quantifier": "all settings of the optimizer, all histories of trials, all numbers of candidates and of pending trials", "why_tests_cant": "the number of candidates for continuation depends on the history, and tests use histories with several", "anchors": ["neps/optimizers/bayesian_optimization/models/ftpfn.py:FTPFNSurrogate.get_pi", "neps/optimizers/bayesian_optimization/models/ftpfn.py:FTPFNSurrogate.get_mean_performance", "neps/optimizers/bayesian_optimization/models/ftpfn.py:acquire_next_from_ftpfn", "neps/optimizers/bayesian_optimization/models/ftpfn.py:_cast_tensor_shapes", "neps/optimizers/multi_fidelity/ifbo.py:IFBO.ask"]}
{"id": "C17", "title": "Writing a trial to its directory and reading it back gives the same trial", "statement": "For every trial and every previous content of the directory written by the same trial's earlier versions, read(write(trial)) = trial.", "quantifier": "all trials and all histories of writes to one directory", "why_tests_cant": "the previous content of the directory matters", "anchors": ["neps/state/filebased.py:ReaderWriterTrial"]}
{"id": "C18", "title": "Trial ids survive the directory naming", "statement": "all_trial_ids() returns exactly the ids for which a trial was created.", "quantifier": "all sets of trial ids (strings)", "why_tests_cant": "for all strings", "anchors": ["neps/state/filebased.py:TrialRepoInDirectory.all_trial_ids", "neps/state/filebased.py:TrialRepoInDirectory.get_by_id"]}
{"id": "C19", "title": "Interpretation of the user's return value", "statement": "A returned number is the loss, with the configured default cost and learning curve; a returned mapping yields its loss, its cost or the default, the learning curve from the top level, else from info_dict, else the default, and all remaining keys unchanged as extra; a mapping without loss is an error; the learning curve default 'loss' is the singleton list of the loss.", "quantifier": "all returned values and default settings", "why_tests_cant": "total function specification over all mappings", "anchors": ["neps/state/_eval.py:parse_user_result"]}
{"id": "C20", "title": "An exception in the objective is recorded, not propagated", "statement": "For every objective, every return value and every exception: evaluating a trial returns a report (crashed with the configured default loss and cost and the exception, if the objective raised), and the worker loop continues.", "quantifier": "all objectives and outcomes", "why_tests_cant": "all outcomes including malformed ones", "anchors": ["neps/state/_eval.py:_eval_trial", "neps/runtime.py:DefaultWorker.run"]}
{"id": "C21", "title": "Grid search visits every grid point exactly once", "statement": "With a fixed seed, successive asks enumerate every configuration of the grid exactly once and then raise; this holds for every grid and every seed.", "quantifier": "all grids, seeds and numbers of trials", "why_tests_cant": "all grid sizes", "anchors": ["neps/optimizers/grid_search/optimizer.py:GridSearch.ask"]}
{"id": "C22", "title": "Optimizers never propose an id that already exists", "statement": "For every history of trials produced by the optimizer itself (any order of the mapping, any subset still pending), the id returned by ask is not the id of an existing trial, so storing it never raises TrialAlreadyExistsError (random search, grid search, successive halving, ASHA, hyperband).", "quantifier": "all histories of asks and reports", "why_tests_cant": "all histories", "anchors": ["neps/optimizers/multi_fidelity/successive_halving.py:SuccessiveHalvingBase.get_config_and_ids", "neps/optimizers/random_search/optimizer.py", "neps/optimizers/grid_search/optimizer.py"]}
{"id": "C23", "title": "Only the best finished configurations are promoted", "statement": "Synchronous: from a rung, configurations are promoted only when the rung has received its full quota and none of its members is pending, only top-k by loss, and never from the maximum rung. Asynchronous: at most floor(n/eta) of the n finished configurations of a rung are eligible, they are the ones with the lowest losses, none is pending, never from the maximum rung.", "quantifier": "all rung contents, losses, eta, capacities", "why_tests_cant": "all rung contents", "anchors": ["neps/optimizers/multi_fidelity/promotion_policy.py:SyncPromotionPolicy.retrieve_promotions", "neps/optimizers/multi_fidelity/promotion_policy.py:AsyncPromotionPolicy.retrieve_promotions"]}
{"id": "C24", "title": "A promotion continues the same configuration one rung higher", "statement": "When a configuration is promoted the proposed configuration equals the earlier one in every hyperparameter except the fidelity, the fidelity is the budget of the next rung, the id is <config>_<rung+1> and the previous id <config>_<rung> is an existing finished trial.", "quantifier": "all histories", "why_tests_cant": "all histories of asks and reports", "anchors": ["neps/optimizers/multi_fidelity/successive_halving.py:SuccessiveHalvingBase.get_config_and_ids"]}
{"id": "C25", "title": "Rung budgets are increasing and end at the maximum budget", "statement": "For all budgets and eta, the rung map assigns strictly increasing budgets to consecutive rungs, the top rung gets the maximum budget, consecutive budgets differ by the factor eta and no rung is below the minimum budget.", "quantifier": "all min/max budgets, eta, early stopping rates", "why_tests_cant": "all parameters", "anchors": ["neps/optimizers/multi_fidelity/successive_halving.py:SuccessiveHalvingBase._get_rung_map"]}
{"id": "C26", "title": "Bracket geometry", "statement": "In every bracket each rung above the first receives exactly floor(n/eta) of the n configurations of the rung below, the top rung receives at least one, and the capacities are positive.", "quantifier": "all budgets, eta, early stopping rates", "why_tests_cant": "all parameters", "anchors": ["neps/optimizers/multi_fidelity/successive_halving.py:SuccessiveHalvingBase._get_config_map"]}
{"id": "C27", "title": "A bracket counts as finished exactly when every promotion slot was used", "statement": "The bracket budget test used to move on to the next bracket is true exactly when the bracket's configurations occupy the rungs with the final counts of the bracket.", "quantifier": "all bracket occupations", "why_tests_cant": "all occupations", "anchors": ["neps/optimizers/multi_fidelity/successive_halving.py:SuccessiveHalving.clear_old_brackets", "neps/optimizers/multi_fidelity/successive_halving.py:SuccessiveHalving._calc_budget_used_in_bracket"]}
{"id": "C28", "title": "Multi-fidelity decisions do not depend on the order in which trials are listed", "statement": "The table of observed configurations, the rung memberships and the next config id computed from a set of trials are the same for every order of the mapping of trials.", "quantifier": "all permutations of all trial sets", "why_tests_cant": "all permutations", "anchors": ["neps/optimizers/multi_fidelity/successive_halving.py:SuccessiveHalvingBase._load_previous_observations", "neps/optimizers/multi_fidelity/successive_halving.py:SuccessiveHalvingBase._get_rungs_state"]}
{"id": "C29", "title": "Casting between domains stays in bounds", "statement": "For every pair of domains and every value of the source domain, cast yields a value within the bounds of the target domain, an integer for integer domains.", "quantifier": "all domains (float, integer, log, binned) and values", "why_tests_cant": "all real numbers", "anchors": ["neps/search_spaces/domain.py:Domain.cast", "neps/search_spaces/domain.py:Domain.to_unit", "neps/search_spaces/domain.py:Domain.from_unit"]}
{"id": "C30", "title": "Domain encoding round trips", "statement": "Casting a value to the unit interval and back returns the value: for float domains (linear and log), for integer domains and for index domains.", "quantifier": "all domains and values", "why_tests_cant": "all values", "anchors": ["neps/search_spaces/domain.py:Domain.to_unit", "neps/search_spaces/domain.py:Domain.from_unit", "neps/search_spaces/encoding.py:MinMaxNormalizer"]}
{"id": "C31", "title": "Categorical encodings are injective and round trip", "statement": "For every list of distinct choices, decode(encode(c)) = c for both categorical transformers and distinct choices have distinct codes.", "quantifier": "all lists of distinct choices", "why_tests_cant": "all lists", "anchors": ["neps/search_spaces/encoding.py:CategoricalToIntegerTransformer", "neps/search_spaces/encoding.py:CategoricalToUnitNorm"]}
{"id": "C32", "title": "Configuration encoder round trip and column order", "statement": "decode(encode(configs)) = configs with constants included, and the column of a hyperparameter depends only on the set of names, not on the order in which they were given.", "quantifier": "all spaces, all lists of configurations, all name orders", "why_tests_cant": "all spaces", "anchors": ["neps/search_spaces/encoding.py:ConfigEncoder"]}
{"id": "C33", "title": "Sampled, mutated and grid values stay in bounds", "statement": "Every value produced by sampling (with or without prior), mutation, crossover or grid construction of a float, integer or categorical hyperparameter lies within the declared bounds / choices.", "quantifier": "all parameters and all random draws", "why_tests_cant": "all random outcomes", "anchors": ["neps/search_spaces/hyperparameters/float.py", "neps/search_spaces/hyperparameters/integer.py", "neps/search_spaces/hyperparameters/categorical.py"]}
{"id": "C34", "title": "set_value rejects invalid values and leaves the parameter unchanged", "statement": "set_value with a value outside the bounds or not among the choices raises and the previously stored value is still there.", "quantifier": "all parameters and values", "why_tests_cant": "all values", "anchors": ["neps/search_spaces/hyperparameters/float.py:FloatParameter.set_value", "neps/search_spaces/hyperparameters/categorical.py:CategoricalParameter.set_value"]}
{"id": "C35", "title": "The grid contains each configuration once", "statement": "get_search_space_grid returns every combination of the per-parameter grid values exactly once, duplicates arising from integer rounding removed.", "quantifier": "all spaces and grid resolutions", "why_tests_cant": "all spaces", "anchors": ["neps/search_spaces/search_space.py:SearchSpace.get_search_space_grid"]}
{"id": "C36", "title": "Precedence of run arguments", "statement": "For every argument: a value passed explicitly to neps.run wins over the YAML value, which wins over the default; searcher keyword arguments are merged key by key with the same precedence; every setting is assigned or an error is raised.", "quantifier": "all combinations of explicit, YAML and default arguments", "why_tests_cant": "all combinations", "anchors": ["neps/utils/run_args.py:Settings"]}
{"id": "C37", "title": "Flattening the run_args YAML keeps every setting", "statement": "For every nested YAML document, every leaf that is not None/'None' appears in the flat settings with its own key, special keys are taken from any depth, and nothing else appears.", "quantifier": "all nested documents", "why_tests_cant": "recursive documents of any depth", "anchors": ["neps/utils/run_args.py:extract_leaf_keys"]}
{"id": "C38", "title": "Default searcher selection", "statement": "Without a searcher the choice depends only on whether the space has a prior and a fidelity, and user-supplied searcher arguments are applied exactly when the user chose the searcher.", "quantifier": "all spaces and arguments", "why_tests_cant": "all arguments", "anchors": ["neps/api.py:_run_args"]}
{"id": "C39", "title": "YAML parameter type deduction", "statement": "Two integers give an integer parameter, two floats a float, a pair with scientific notation a float, choices a categorical, a scalar a constant; all other descriptions raise.", "quantifier": "all descriptions", "why_tests_cant": "all descriptions", "anchors": ["neps/search_spaces/yaml_search_space_utils.py:deduce_type"]}
{"id": "C40", "title": "The status summary is accurate", "statement": "best_loss is the minimum loss over successful trials, num_error the number of failed ones, num_evaluated_configs the number with a report, num_pending_configs the number of trials without report.", "quantifier": "all sets of trials", "why_tests_cant": "all sets of trials", "anchors": ["neps/status/status.py:get_summary_dict"]}
{"id": "C41", "title": "The initial directory of a lineage", "statement": "get_initial_directory terminates and returns the directory of the first trial of the promotion chain of the given trial of the current run.", "quantifier": "all promotion chains, all sequences of calls", "why_tests_cant": "all chains and call histories (a cache is involved)", "anchors": ["neps/utils/common.py:get_initial_directory"]}
{"id": "C42", "title": "PriorBand sampling weights form a probability distribution", "statement": "For every rung, weighting scheme and incumbent style the weights of prior, incumbent and random sampling are non-negative and sum to one, and moving the incumbent weight to the prior keeps that.", "quantifier": "all eta, rungs, weight types, scores", "why_tests_cant": "all parameters", "anchors": ["neps/optimizers/multi_fidelity_prior/priorband.py:PriorBandBase.calc_sampling_args"]}
{"id": "C43", "title": "The border sampler enumerates the corners", "statement": "With n >= 2^d the border sampler returns each of the 2^d corners of the hypercube exactly once; otherwise n distinct corners.", "quantifier": "all dimensions d and n", "why_tests_cant": "all dimensions", "anchors": ["neps/sampling/samplers.py:BorderSampler.sample"]}
{"id": "C44", "title": "ifBO training data", "statement": "A loss outside [0,1] is rejected; a crashed trial never looks better than a successful one; the trial named as predecessor of a continued configuration exists.", "quantifier": "all trial sets", "why_tests_cant": "all trial sets", "anchors": ["neps/optimizers/multi_fidelity/ifbo.py:IFBO.ask", "neps/optimizers/bayesian_optimization/models/ftpfn.py:encode_ftpfn"]}
{"id": "C45", "title": "Resuming continues the same random sequence", "statement": "The sequence of configurations sampled in a run depends only on the initial seed state and the trials, not on which worker process performs each sampling step or on how often workers are stopped and restarted between samples.", "quantifier": "all assignments of sampling steps to workers, all restart points", "why_tests_cant": "all schedules", "anchors": ["neps/state/neps_state.py:NePSState.sample_trial", "neps/state/seed_snapshot.py"]}
{"id": "C46", "title": "A run directory cannot be continued with a different optimizer configuration", "statement": "Starting a run in an existing run directory succeeds exactly when the optimizer info equals the stored one, and then uses the stored values; otherwise it raises and changes nothing. In a directory that does not exist it creates the run. Starting it again with the same arguments succeeds, also after a process was killed at any point, and for processes that start at the same time.", "quantifier": "all stored and supplied optimizer infos, all states of the directory, all interleavings of any number of starting processes, all kill points", "why_tests_cant": "the outcome depends on the interleaving of unlocked checks with file writes of other processes and on where a process dies; and on every nested value an info may contain", "anchors": ["neps/state/filebased.py:create_or_load_filebased_neps_state", "neps/state/protocols.py:Synced.new_or_load", "neps/runtime.py:_launch_runtime", "neps/utils/files.py:serialize,deserialize"]}
{"id": "C47", "title": "The in-progress trial is visible exactly during its evaluation", "statement": "Inside the objective get_in_progress_trial returns the trial being evaluated, after each evaluation the slot is empty, so a later evaluation in the same process is never refused.", "quantifier": "all sequences of evaluations and outcomes", "why_tests_cant": "all sequences of outcomes", "anchors": ["neps/runtime.py:_set_global_trial"]}
{"id": "C48", "title": "A lost claim race does not kill the worker", "statement": "A worker whose attempt to mark a trial as evaluating is refused because another worker was faster goes on with another trial, up to nine times in a row.", "quantifier": "all schedules", "why_tests_cant": "needs a lost race at the right moment", "anchors": ["neps/runtime.py:DefaultWorker.run"]}
{"id": "C49", "title": "A restarted run finishes max_evaluations_total evaluations", "statement": "If workers are killed at arbitrary points and a new worker is started on the same directory, the run ends with max_evaluations_total reported trials.", "quantifier": "all crash points", "why_tests_cant": "all crash points", "anchors": ["neps/runtime.py:DefaultWorker._check_if_should_stop"]}
{"id": "C50", "title": "Error log file round trip", "statement": "Reading the JSON-lines error file returns exactly the list of errors that was written, for every list of errors.", "quantifier": "all lists of errors", "why_tests_cant": "all strings", "anchors": ["neps/state/filebased.py:ReaderWriterErrDump"]}
{"id": "C51", "title": "A kill while a trial is stored never leaves a finished trial without report", "statement": "If a worker is killed between any two file writes of storing a trial, the directory reads back as the old or the new version of the trial; in particular a trial in a final state has its report.", "quantifier": "every crash point inside storing a trial, all trials", "why_tests_cant": "Tests do not kill the process between two file writes.", "anchors": ["neps/state/filebased.py: ReaderWriterTrial.write", "neps/state/filebased.py: ReaderWriterTrial.read"]}
{"id": "C52", "title": "A result that cannot be stored does not damage the stored trial", "statement": "If a report holds a value that cannot be serialized (an arbitrary object in the result mapping, an exception that cannot be copied), storing it raises and the trial directory still reads back as it did before.", "quantifier": "all trials, results and exceptions", "why_tests_cant": "The set of values an objective may return or raise is unbounded; tests use plain floats.", "anchors": ["neps/utils/files.py: serialize", "neps/state/filebased.py: ReaderWriterTrial.write", "neps/state/trial.py: Report"]}
{"id": "C53", "title": "Multi-fidelity optimizers always answer", "statement": "After any history of asks and reports, ask of successive halving, ASHA, hyperband and asynchronous hyperband returns a proposal and does not raise.", "quantifier": "all histories, orders of the mapping, settings and sorting orders of ties", "why_tests_cant": "the histories are unbounded and the exceptions depend on the mix of failed, pending and finished trials in a rung", "anchors": ["neps/optimizers/multi_fidelity/successive_halving.py:ask", "neps/optimizers/multi_fidelity/promotion_policy.py", "neps/optimizers/multi_fidelity/hyperband.py"]}
{"id": "C54", "title": "Hyperband finishes brackets before it starts new configurations", "statement": "Hyperband starts a new configuration only when every bracket whose configurations have all started is finished (all its rungs are full) or waits for an evaluation that has no usable result yet. The new configuration starts at the lowest fidelity of the one bracket it belongs to.", "quantifier": "all histories of hyperband, all orders of reports", "why_tests_cant": "which brackets are open depends on the whole history and on the order in which workers report", "anchors": ["neps/optimizers/multi_fidelity/hyperband.py:clear_old_brackets", "neps/optimizers/multi_fidelity/successive_halving.py:clear_old_brackets"]}
{"id": "C55", "title": "A hyperparameter always holds a legal value", "statement": "After any sequence of calls of the constructor, set_value, set_default, load_from and copies of a hyperparameter, whether they raised or not, the value it holds, if any, is within the bounds or among the choices.", "quantifier": "every declaration and every finite sequence of method calls with arbitrary arguments", "why_tests_cant": "the sequences of calls and their arguments are unbounded", "anchors": ["neps/search_spaces/hyperparameters/float.py FloatParameter", "integer.py IntegerParameter", "categorical.py CategoricalParameter"]}
{"id": "C56", "title": "set_default rejects invalid defaults and changes nothing", "statement": "set_default with a value outside the bounds or not among the choices raises and leaves the default as it was; with a legal value the default is that value.", "quantifier": "every declaration, parameter state and argument", "why_tests_cant": "arguments and states are unbounded", "anchors": ["neps/search_spaces/hyperparameters/float.py FloatParameter.set_default", "neps/search_spaces/hyperparameters/integer.py IntegerParameter.set_default", "neps/search_spaces/hyperparameters/categorical.py CategoricalParameter.set_default"]}
{"id": "C57", "title": "The prior of a categorical parameter is a distribution around its default", "statement": "For every list of choices, default and confidence score the prior probabilities are non-negative, sum to one, there is one per choice, every choice other than the default has a positive probability, and the default is exactly the score times as likely as every other choice.", "quantifier": "every list of choices, default among them and confidence score", "why_tests_cant": "the number of choices and the confidence are unbounded", "anchors": ["neps/search_spaces/hyperparameters/categorical.py CategoricalParameter._compute_user_prior_probabilities"]}
{"id": "C58", "title": "Copies of a hyperparameter are faithful", "statement": "clone of a hyperparameter succeeds and returns a parameter with the same declaration, value, default and prior confidence.", "quantifier": "every hyperparameter reachable by method calls", "why_tests_cant": "states are unbounded", "anchors": ["neps/search_spaces/hyperparameters/float.py FloatParameter.clone", "neps/search_spaces/hyperparameters/integer.py IntegerParameter.clone", "neps/search_spaces/hyperparameters/categorical.py CategoricalParameter.clone"]}
{"id": "C59", "title": "Sampled configurations are complete and legal", "statement": "SearchSpace.sample succeeds whenever at least one attempt per parameter is allowed, and returns a configuration with the same parameter names and declarations in which every parameter has a legal value; a fidelity that is to be ignored keeps the value it had.", "quantifier": "every space built from parameters in order, every switch, every sequence of random numbers", "why_tests_cant": "spaces and random numbers are unbounded", "anchors": ["neps/search_spaces/search_space.py SearchSpace.sample"]}
{"id": "C60", "title": "Configurations survive writing and reading", "statement": "from_dict with legal values for names of the space succeeds and sets exactly those values; an unknown name is rejected; from_dict of the serialised form of a configuration gives a configuration with the same values.", "quantifier": "every space, configuration and dictionary", "why_tests_cant": "spaces and dictionaries are unbounded", "anchors": ["neps/search_spaces/search_space.py SearchSpace.from_dict", "neps/search_spaces/search_space.py SearchSpace.serialize"]}
{"id": "C61", "title": "Mutation changes one parameter", "statement": "mutate returns a legal configuration of the space that differs from the original in exactly one parameter, which is neither constant nor the fidelity, and it succeeds as soon as one of the allowed attempts picks a parameter that can be mutated; with a parent given it starts from that parent.", "quantifier": "every configuration, number of attempts and sequence of random choices", "why_tests_cant": "configurations and random choices are unbounded", "anchors": ["neps/search_spaces/search_space.py SearchSpace.mutate", "neps/search_spaces/search_space.py SearchSpace._smbo_mutation"]}
{"id": "C62", "title": "Crossover gives two legal configurations", "statement": "crossover of two configurations of a space returns two legal configurations of that space; constants, the fidelity and parameters not selected keep the value of the respective parent; it succeeds if every selected parameter can be crossed over in one of the allowed attempts; selected categorical parameters exchange their values.", "quantifier": "every pair of configurations of a space, selection and sequence of random numbers", "why_tests_cant": "configurations and random numbers are unbounded", "anchors": ["neps/search_spaces/search_space.py SearchSpace.crossover", "neps/search_spaces/search_space.py SearchSpace._simple_crossover"]}
{"id": "C63", "title": "The default configuration", "statement": "sample_default_configuration sets every parameter that has a default to it, samples the others when missing defaults are to be ignored and raises otherwise, and leaves an ignored fidelity alone.", "quantifier": "every space, switches and random numbers", "why_tests_cant": "spaces and random numbers are unbounded", "anchors": ["neps/search_spaces/search_space.py SearchSpace.sample_default_configuration"]}
{"id": "C64", "title": "Equality of configurations", "statement": "is_equal_value of two complete configurations of a space is true exactly when all values (fidelity included on request) are equal, floats up to the given number of digits on the normalised scale; it is reflexive, symmetric and transitive and tells configurations with different constants apart.", "quantifier": "every pair of configurations of a space and number of digits", "why_tests_cant": "configurations are unbounded", "anchors": ["neps/search_spaces/search_space.py SearchSpace.is_equal_value"]}
{"id": "C65", "title": "Setting values and defaults from a dictionary", "statement": "set_hyperparameters_from_dict with legal values sets exactly the named parameters as asked and leaves the others alone; if it raises, nothing has changed.", "quantifier": "every space, switches and dictionary", "why_tests_cant": "spaces and dictionaries are unbounded", "anchors": ["neps/search_spaces/search_space.py SearchSpace.set_hyperparameters_from_dict"]}
{"id": "C66", "title": "YAML run arguments are validated", "statement": "A run_args YAML file with an unknown key, or with a value of the wrong type, raises; when it is accepted, every setting has its documented type.", "quantifier": "all documents", "why_tests_cant": "all documents", "anchors": ["neps/utils/run_args.py:get_run_args_from_yaml", "neps/utils/run_args.py:check_run_args"]}
{"id": "C67", "title": "Every registered searcher can be selected", "statement": "Every searcher registered with the package can be selected by its name, or as the strategy of a dictionary, and passing None for the searcher means the default choice.", "quantifier": "all registered names, all other arguments of the call", "why_tests_cant": "all arguments", "anchors": ["neps/api.py:_run_args", "neps/optimizers/__init__.py:SearcherMapping", "neps/optimizers/info.py:SearcherConfigs"]}
{"id": "C68", "title": "Reading a description twice gives the same space", "statement": "pipeline_space_from_yaml changes the dictionary it is given (types are removed, numbers converted), but reading the changed dictionary again gives the same space and changes nothing more; the names and their order are kept.", "quantifier": "all dictionaries that are accepted", "why_tests_cant": "all dictionaries, call histories", "anchors": ["neps/search_spaces/search_space.py:pipeline_space_from_yaml", "neps/search_spaces/yaml_search_space_utils.py:deduce_type"]}
{"id": "C69", "title": "A space in the run arguments is the space it describes", "statement": "A pipeline_space written inline in the run_args YAML, or in a file of its own, is the search space described there.", "quantifier": "all documents", "why_tests_cant": "all documents", "anchors": ["neps/utils/run_args.py:process_pipeline_space"]}
{"id": "C70", "title": "The CSV files list every trial", "statement": "With post_run_summary=True the files written after a run contain one row for every trial, successful trials first sorted by loss, and the number of trials of each kind; writing them never raises.", "quantifier": "all sets of trials", "why_tests_cant": "all sets of trials", "anchors": ["neps/status/status.py:post_run_csv", "neps/status/status.py:_get_dataframes_from_summary", "neps/status/status.py:_save_data_to_csv"]}
{"id": "C71", "title": "The objective receives its configuration and its directories", "statement": "Every evaluation calls the objective with exactly the hyperparameter values of the trial's configuration, pipeline_directory is the directory of that trial, and previous_pipeline_directory is the directory of the trial it continues (None for a fresh configuration).", "quantifier": "all objectives (parameter lists), all executions", "why_tests_cant": "all executions of several workers", "anchors": ["neps/runtime.py:evaluation", "neps/state/_eval.py:evaluate_trial", "neps/state/neps_state.py:NePSState.sample_trial"]}
{"id": "C72", "title": "Multi-fidelity guarantees hold in parallel runs with crashes", "statement": "Whatever the number of workers, their schedule and the points at which they are killed, the trials stored by a run with successive halving, hyperband or their asynchronous versions are numbered without gaps, a continued trial has a finished predecessor with the same hyperparameters at the rung below, brackets keep their quotas, the promoted trials are the best, and a worker that samples always adds exactly one trial.", "quantifier": "all optimizers of the family, all numbers of workers, schedules, kill points, evaluation outcomes and orders in which directories are listed", "why_tests_cant": "combines all schedules and crash points with all optimizer histories", "anchors": ["neps/state/neps_state.py:NePSState.sample_trial", "neps/optimizers/multi_fidelity/successive_halving.py:SuccessiveHalvingBase.ask", "neps/optimizers/multi_fidelity/hyperband.py:HyperbandBase.ask", "neps/runtime.py:DefaultWorker.run"]}
{"id": "C73", "title": "The weighted sampler keeps every sampler's rows", "statement": "A weighted combination of samplers gives every sampler exactly the points that were drawn for it, in order, and no point is left uninitialised; the probabilities of the samplers are the normalised weights; combinations with fewer than two samplers, other numbers of weights or different numbers of columns are rejected.", "quantifier": "all samplers, weights, numbers of points and draws", "why_tests_cant": "the draws and samplers are arbitrary; mixing up indices shows only for particular draws", "anchors": ["neps/sampling/samplers.py:WeightedSampler"]}
{"id": "C74", "title": "Priors concentrate on the declared default", "statement": "A prior made of centers and confidences is a probability distribution on every column whose mode is the center: on categorical columns the center has the confidence as its probability and the others share the rest equally; on numerical columns the density decreases with the distance from the center; every sample is a value of the target domains.", "quantifier": "all domains, centers, confidences, draws", "why_tests_cant": "all confidences and numbers of choices; the draws are arbitrary", "anchors": ["neps/sampling/priors.py:Prior.make_centered", "neps/sampling/priors.py:Prior.from_parameters", "neps/sampling/priors.py:CenteredPrior.sample"]}
{"id": "C75", "title": "Every parameter is sampled from its own prior", "statement": "A configuration sampled with the prior of a search space has, for every parameter, a value drawn from the prior declared for that parameter.", "quantifier": "all search spaces and draws", "why_tests_cant": "depends on the names of the parameters", "anchors": ["neps/optimizers/initial_design.py:make_initial_design", "neps/sampling/priors.py:Prior.from_parameters", "neps/search_spaces/encoding.py:ConfigEncoder.default"]}
{"id": "C76", "title": "The density of a prior is the product of the densities of its columns", "statement": "The log density of a configuration under a prior is the sum of the log densities of its columns, and it can be computed for every configuration of the domains.", "quantifier": "all priors, configurations", "why_tests_cant": "all combinations of columns with and without prior", "anchors": ["neps/sampling/priors.py:CenteredPrior.log_prob"]}
{"id": "C77", "title": "The user's prior fades out", "statement": "In Bayesian optimization with priors, the weight of the user's prior is strongest right after the initial design, fades with every further configuration, and finally has no influence on which candidate is preferred.", "quantifier": "all numbers of sampled configurations, dimensions, candidates and densities", "why_tests_cant": "an asymptotic statement over all rounds", "anchors": ["neps/optimizers/bayesian_optimization/optimizer.py:_pibo_exp_term", "neps/optimizers/bayesian_optimization/acquisition_functions/pibo.py:apply_pibo_acquisition_weight"]}
{"id": "C78", "title": "The initial design has what was asked for", "statement": "An initial design starts with the default configuration if asked for, continues with as many sampled configurations as asked for, spread over the space, all at the requested fidelity; arguments that make no sense are rejected.", "quantifier": "all spaces, samplers, sizes and fidelity arguments", "why_tests_cant": "all samples of all samplers; coverage of the space", "anchors": ["neps/optimizers/initial_design.py:make_initial_design"]}
{"id": "C79", "title": "No evaluation is lost or misattributed in the training data", "statement": "Every finished trial is a training row with its own configuration and its own loss (or, if it has none, a median of the reported losses); every other trial is a pending row.", "quantifier": "all sets of trials in any state", "why_tests_cant": "all combinations of states and missing losses", "anchors": ["neps/optimizers/bayesian_optimization/models/gp.py:encode_trials_for_gp"]}
{"id": "C80", "title": "With a cost budget cheaper candidates are preferred", "statement": "With costs enabled, of two equally promising candidates the cheaper one is preferred, the more so the more of the budget is left; trials without a cost are left out of the cost model.", "quantifier": "all costs, budgets, acquisition values", "why_tests_cant": "order relation over all real values; histories with missing costs", "anchors": ["neps/optimizers/bayesian_optimization/acquisition_functions/cost_cooling.py:cost_cooled_acq", "neps/optimizers/bayesian_optimization/models/gp.py:fit_and_acquire_from_gp"]}
{"id": "C81", "title": "Every combination of choices is considered for the next candidate", "statement": "When a candidate is acquired, the acquisition function is optimized, with at least one start, for every combination of choices of the categorical parameters, or the request is rejected as too large.", "quantifier": "all spaces", "why_tests_cant": "all combinations of choices", "anchors": ["neps/optimizers/bayesian_optimization/models/gp.py:optimize_acq"]}
{"id": "C82", "title": "Sampling around the incumbent starts after the first bracket", "statement": "PriorBand samples around the incumbent only once the evaluations finished so far have used as many resources as one bracket and one of them was at the highest fidelity; after a whole bracket is finished it always does, and from then on; the incumbent is a configuration with the smallest loss.", "quantifier": "all histories of asks and reports, all orders of the trials, all brackets", "why_tests_cant": "all histories of several workers", "anchors": ["neps/optimizers/multi_fidelity_prior/priorband.py:PriorBandBase.is_activate_inc", "neps/optimizers/multi_fidelity_prior/priorband.py:PriorBandBase.find_incumbent"]}
{"id": "C83", "title": "Policies, partners and brackets are drawn with the stated probabilities", "statement": "A sample comes from the incumbent, the prior or at random exactly with the weights of the three; an option of weight zero is never drawn, in particular not the incumbent before incumbent sampling is active; the probabilities of crossover partners and of asynchronous brackets are valid, and lower brackets are at least as likely as higher ones.", "quantifier": "all weights, all uniform draws, all eta and numbers of brackets", "why_tests_cant": "all real weights and draws", "anchors": ["neps/optimizers/multi_fidelity/sampling_policy.py:EnsemblePolicy.sample", "neps/optimizers/multi_fidelity_prior/async_priorband.py:PriorBandAshaHB._get_bracket_to_run"]}
{"id": "C84", "title": "Mutants and crossovers of the incumbent are legal and new", "statement": "A mutant of the incumbent is a legal configuration of the space in which only the parameters drawn for mutation changed, each to a different legal value, and the fidelity never; it differs from the incumbent unless all attempts failed. A crossover takes every value from one of its two parents, or is a fresh sample if no attempt differs from the parent. Gaussian sampling around the incumbent is centred at the incumbent's values.", "quantifier": "all spaces, incumbents, partners, draws and patience", "why_tests_cant": "all combinations of parameters and random draws", "anchors": ["neps/optimizers/multi_fidelity_prior/utils.py:local_mutation", "neps/optimizers/multi_fidelity_prior/utils.py:custom_crossover", "neps/optimizers/multi_fidelity/sampling_policy.py:EnsemblePolicy.sample"]}
{"id": "C85", "title": "The distance of configurations is a distance, and sampling near the incumbent finds the nearest sphere", "statement": "The distance of two complete configurations is the Euclidean distance over the numerical parameters plus the share of categorical parameters that differ; it is zero exactly if they agree on everything but the fidelity, symmetric, satisfies the triangle inequality, and is bounded by the number of parameters. The radius of the sphere around the incumbent is the distance of the nearest observed configuration that differs; sampling takes the first configuration inside the sphere, which grows by one per cent after 1001 failures, and always ends.", "quantifier": "all spaces, configurations, observed configurations and sequences of samples", "why_tests_cant": "real-valued inequalities over all configurations; termination for every sequence of samples", "anchors": ["neps/optimizers/multi_fidelity_prior/utils.py:compute_config_dist", "neps/optimizers/multi_fidelity_prior/priorband.py:find_1nn_distance_from_incumbent", "neps/optimizers/multi_fidelity/sampling_policy.py:EnsemblePolicy.sample_neighbour"]}
{"id": "C86", "title": "The surrogate of model-based multi-fidelity search gets the right data, and configurations come from it", "statement": "With one surrogate per rung it is built at the highest rung with enough finished trials, on exactly the finished trials at that rung with their losses there; the joint surrogate uses all finished trials, each with the fidelity of its own rung; running trials are passed as pending. The initial phase ends once there is such a rung and does not come back. Before it ends configurations come from the sampling policy, afterwards from the surrogate.", "quantifier": "all histories of trials, brackets and sizes of the initial design", "why_tests_cant": "all histories, in particular those with promoted, crashed and running trials", "anchors": ["neps/optimizers/multi_fidelity/mf_bo.py:MFBOBase", "neps/optimizers/multi_fidelity/sampling_policy.py:ModelPolicy"]}
{"id": "C87", "title": "The step size of ifBO divides the fidelity range", "statement": "ifBO raises the lower bound of the fidelity by less than one step, so that the range is a whole number of steps up to the unchanged upper bound; step sizes that do not fit, log scales and defaults below the new lower bound are rejected; every accepted fidelity can be optimized.", "quantifier": "all float fidelities and step sizes, all integer fidelities and whole step sizes", "why_tests_cant": "all real bounds, defaults and step sizes", "anchors": ["neps/optimizers/multi_fidelity/ifbo.py:_adjust_pipeline_space_to_match_stepsize", "neps/optimizers/multi_fidelity/ifbo.py:IFBO.__init__"]}
{"id": "C88", "title": "ifBO evaluates each configuration level by level", "statement": "In every history each trial is at the fidelity level its id names, no id is used twice, and a trial above the lowest level continues a finished trial of the same configuration one level below. A proposal is a new configuration at the lowest level under an unused number, or continues the highest finished trial of a configuration one level higher and names that trial as predecessor; so the state accepts it.", "quantifier": "all histories of proposals and reports in any order, all scores of the surrogate, all samples, any number of workers", "why_tests_cant": "all histories and all behaviours of the surrogate", "anchors": ["neps/optimizers/multi_fidelity/ifbo.py:IFBO.ask", "neps/state/neps_state.py:NePSState.sample_trial"]}
{"id": "C89", "title": "ifBO's acquisition step picks the best candidate", "statement": "The chosen candidate has the highest score among the highest evaluation of every configuration that is not complete and all samples; it is one of them; on equal scores an evaluated configuration is preferred. A candidate is found whenever the samplers return samples.", "quantifier": "all scores, all tables of evaluations, all samplers", "why_tests_cant": "all tables and all scoring functions", "anchors": ["neps/optimizers/bayesian_optimization/models/ftpfn.py:acquire_next_from_ftpfn", "neps/optimizers/bayesian_optimization/models/ftpfn.py:_keep_highest_budget_evaluation"]}
{"id": "C90", "title": "Sampled architectures are parse trees of the grammar", "statement": "Sampling n architectures from a grammar gives n texts, each the text of a parse tree of the grammar whose root is the start symbol asked for (the grammar's own unless another is given). Sampling with user priors never uses a production with probability zero.", "quantifier": "all grammars, priors, start symbols, numbers of samples and random numbers", "why_tests_cant": "infinitely many grammars and trees of any depth", "anchors": ["neps/search_spaces/architecture/cfg.py:Grammar.sampler", "neps/search_spaces/architecture/cfg.py:Grammar._sampler", "neps/search_spaces/architecture/graph_grammar.py:GraphGrammar.sample"]}
{"id": "C91", "title": "Every architecture of the grammar can be sampled", "statement": "For every parse tree of a grammar there are random numbers with which it is sampled.", "quantifier": "all grammars and all their parse trees", "why_tests_cant": "absence over all random numbers", "anchors": ["neps/search_spaces/architecture/cfg.py:Grammar._sampler"]}
{"id": "C92", "title": "Mutated architectures are parse trees that differ in subtrees only", "statement": "Mutation of a parse tree gives another parse tree with the same root, different from its parent, in which subtrees are replaced by subtrees with the same root; splitting a tree at a subtree loses nothing; and mutation succeeds whenever there is a different tree.", "quantifier": "all grammars, all parse trees, both mutation strategies, all random numbers", "why_tests_cant": "trees of any depth and all grammars", "anchors": ["neps/search_spaces/architecture/mutations.py:simple_mutate", "neps/search_spaces/architecture/mutations.py:bananas_mutate", "neps/search_spaces/architecture/cfg.py:Grammar.mutate", "neps/search_spaces/architecture/cfg.py:Grammar.remove_subtree", "neps/search_spaces/architecture/graph_grammar.py:GraphGrammar.mutate"]}
{"id": "C93", "title": "Crossover exchanges subtrees with the same root", "statement": "Crossover of two parse trees gives two parse trees with the roots of the parents, which are the parents with two subtrees with the same root exchanged. It gives up only if the second parent has no subtree with the root of the one chosen in the first.", "quantifier": "all grammars, all pairs of parse trees, all random numbers", "why_tests_cant": "trees of any depth and all grammars", "anchors": ["neps/search_spaces/architecture/crossover.py:simple_crossover", "neps/search_spaces/architecture/cfg.py:Grammar.crossover", "neps/search_spaces/architecture/graph_grammar.py:GraphGrammar.crossover"]}
{"id": "C94", "title": "Grammars and priors are checked", "statement": "A grammar from which nothing can be sampled is rejected. A prior is accepted exactly if it has, for each nonterminal, one probability for each of its productions and they sum to one; accepted priors can be sampled with.", "quantifier": "all grammars and priors", "why_tests_cant": "all grammars and priors", "anchors": ["neps/search_spaces/architecture/cfg.py:Grammar.__init__", "neps/search_spaces/architecture/cfg.py:Grammar.prior"]}
{"id": "C95", "title": "The prior of an architecture is the product of its productions", "statement": "compute_prior of a parse tree is the product of the prior probabilities of the productions used in it (its logarithm with log=True), which is the probability with which the tree is sampled with user priors.", "quantifier": "all grammars, priors and parse trees", "why_tests_cant": "trees of any depth and all grammars", "anchors": ["neps/search_spaces/architecture/cfg.py:Grammar.compute_prior", "neps/search_spaces/architecture/graph_grammar.py:GraphGrammar.compute_prior"]}
{"id": "C96", "title": "Pruning keeps exactly the operations between input and output", "statement": "Pruning an acyclic graph leaves exactly the nodes on a path from the input to the output and all edges between them, in whatever topological order the nodes are visited.", "quantifier": "all acyclic graphs, inputs and outputs, all topological orders", "why_tests_cant": "graphs of any size", "anchors": ["neps/search_spaces/architecture/core_graph_grammar.py:CoreGraphGrammar.prune_unconnected_parts", "neps/search_spaces/architecture/core_graph_grammar.py:CoreGraphGrammar.from_stringTree_to_graph_repr"]}
{"id": "C97", "title": "neps results lists the incumbents", "statement": "neps results lists exactly the trials whose loss is below that of all earlier trials, latest first, so that the best trial is on top; the plot has one point per incumbent.", "quantifier": "all runs: any trials, losses, ids and orders of reading them", "why_tests_cant": "any number of trials, NaN and infinite losses, ids of several digits", "anchors": ["neps/utils/cli.py:results", "neps/utils/cli.py:plot_incumbents"]}
{"id": "C98", "title": "neps status shows the right numbers and the latest trials", "statement": "The command prints the numbers of succeeded, failed, active and pending trials, and a table of the trials in the state asked for, or the seven latest ones, newest first.", "quantifier": "all runs, states, sampling times and flags", "why_tests_cant": "any number of trials in any state", "anchors": ["neps/utils/cli.py:status", "neps/status/status.py:get_summary_dict"]}
{"id": "C99", "title": "neps info-config shows any trial of the run", "statement": "For every id of a trial the command shows its configuration, state, times and report, and for other ids it says that there is no such trial.", "quantifier": "all trials in all states", "why_tests_cant": "every state of a trial's life", "anchors": ["neps/utils/cli.py:info_config", "neps/utils/cli.py:convert_timestamp", "neps/utils/cli.py:format_duration"]}
