# Formal model of automl/neps in Lean 4

Source: `/repo` (read as text, never executed).  Model and proofs: `lean/Verif`.
All citations `file:line` are relative to `/repo`.

## Trusted base

* Lean 4.33.0's kernel, and Mathlib's definitions used in statements (`List`, `Finset`,
  `Multiset`, `ℝ`, `Real.log`, `Real.exp`, `Int.floor`, ...).
* Axioms: only `propext`, `Classical.choice`, `Quot.sound`.  No own axioms, no `sorry`, no
  `native_decide`, no `bv_decide`.  `Verif/Axioms.lean` prints the axioms of every theorem
  named in `MANIFEST.json`.
* The hand translation from Python to Lean.  Every definition cites the lines it models and
  names its simplifications.

## Layout

* `Verif/<Area>/Model.lean`  the code, function by function.
* `Verif/<Area>/Spec.lean`   small independent vocabulary in which properties are stated.
* `Verif/<Area>/Lemmas.lean` proofs about the model.
* `Verif/<Area>/Props.lean`  the theorems named in `MANIFEST.json`, each followed by an
  `example` that exhibits a non-trivial instance of its hypotheses.

Where the code does not have a property, the negation is proved on a concrete witness
(theorem names ending in `_fails`), and the largest true part is proved under the suffix
`_partial`.

## What is modelled, and what is not

Modelled:

* versioned resources, `Synced`, file versioner, with crash points between file writes;
* the trial repository, `NePSState`, the worker loop, as a transition system of any number
  of workers with kills between lock-protected operations and inside trial creation;
* stop conditions, result parsing, trial life cycle, trial directory and error log I/O;
* grid/random search, successive halving, ASHA, hyperband, promotion policies, rung and
  bracket arithmetic, PriorBand (weights, activation, incumbent, random choices,
  mutation, crossover, distances, data of the surrogate);
* domains, encoders, numerical/categorical parameters, search space grid, the prior of a
  configuration and the scores PriorBand computes from it, `prior_confidence`, where new configurations
  of the successive halving family come from;
* run argument merging, YAML flattening, searcher selection, type deduction, search spaces given as
  `ConfigSpace` objects (of that library only what NePS reads, and the step width) or
  described in YAML;
* the status summary and the CSV files written after a run, the lineage of a trial, the
  arguments an objective is called with;
* the stored state of the random generators and the sampling step as a whole, with random search,
  grid search, the initial design of Bayesian optimization and the multi-fidelity optimizers;
* creating, joining and looking at a run directory, at the level of file operations;
* border and weighted samplers, centered priors and how priors and encoders fit together, the truncated
  normal distribution with its clamping of probabilities;
* ifBO: step size, fidelity levels, training data, acquisition and proposals over all histories;
* the command line: `neps run` (from options with their arguments on), the directory the other commands
  look at, `neps results`, `neps status`, `neps info-config`, `--searcher-kwargs`, texts of durations;
* saving and loading checkpoints;
* the curve of `neps.plot` (without `x_range` and the band of standard errors);
* the TensorBoard logger: its state, what it writes and where, the grid of images (not resizing);
* architecture grammars: productions, priors, sampling, mutation, crossover and prior probability of
  parse trees as texts; composing functions from them, flattening and pruning the graphs, the module
  generated from a graph; calling a topology;
* constrained grammars: sampling; mutation and crossover with constraint functions; `compute_prior`;
* the structure of an architecture parameter as a dictionary, down to the text of its grammar; what
  such a parameter holds, how it is copied and stored; its value, the graph of operations (without
  subgraphs and graphs per level);
* processes that summarise a run while others work on it;
* the lists of searchers and their settings (`SearcherConfigs`), optimizers given as objects or classes;
* the constructors of the optimizers: signatures, checks, settings (not encoders, priors and models);
* the stored optimization state and what optimizers are told of the budget;
* workers that keep the trials they have opened (`TrialRepoInDirectory._cache`);
* the arguments with which the operations of an architecture are created;
* which locks are taken in which order;
* the global variables of a process with several, nested or interrupted runs;
* the file that `neps init` writes;
* the reading of the trials one by one inside `sample_trial`.
* weighted acquisition functions with pending configurations, and the covariance of the default Gaussian process.
* the environment variables of the locks, and the exceptions of locks that are not free in time.
* the plot of learning curves: which points and lines are drawn for the rows of the summary.
* the files of the random number generators, as bytes.
* the acquisition sampler that mutates good configurations;
* the acquisition functions: expected improvement, confidence bound and weighting with the prior;
* the items of the edges of an architecture, with their aliasing;
* the scope and the child graphs of nested topologies;
* the construction and the shapes of the predefined operations (their values are not modelled);
* the download of ifBO's surrogate model by several processes that may be killed.
* overwriting a run whose workers are still there;
* reading stored configurations with another search space and promoting them;
* the bracket that asynchronous Hyperband draws;
* the surrogate models of ifBO that a process holds;
* the shapes of the scores that ifBO's surrogate returns.

Not modelled (and assumed where relevant):

* floating point rounding: numbers are `ℝ`, `ℚ` or `ℤ`; NaN is modelled where the code
  branches on it;
* uuid4 collisions: version tags are drawn from a counter, i.e. never repeat;
* correctness of `portalocker` (mutual exclusion), atomicity of a single small
  `write_text`, directory visibility between processes;
* YAML/JSON text syntax (values are trees; for the error log, the encoder is any injective
  newline-free encoder);
* numpy/torch random number generators (random outcomes are universally quantified inputs,
  or functions of an abstract generator state);
* the Sobol sequence;
* the network of ifBO (its scores are an arbitrary function), Gaussian processes, the values of the
  acquisition functions and botorch's optimizers (their weights and arguments are modelled), FT-PFN,
  drawing, 3D plots, the other commands of the command line;
* the torch modules that are built from parse trees;
* `nltk`, which is not part of the repository: its reader of grammars is modelled from its behaviour;
* wall-clock time, except as an arbitrary input.

## Properties

| id | model | proof |
|----|-------|-------|
| C01 | `Store`: disk (version, data) + handle per worker; ops load/synced/put/acquire | invariant over histories: handle version = disk version iff no foreign write since |
| C02 | same | cache-coherence invariant: equal versions imply equal data |
| C03 | same, `acquire f` | induction over the history, fold of the functions |
| C04 | `put` split at each file write | `_fails` witness for the point between data and version; `_partial` for the others |
| C05 | `new` split at each file write | `_fails` witness (version bumped first); `_partial` |
| C06 | `new`, `new_or_load`, `put_new` | induction over racing creators |
| C07 | worker transition system | `_fails` trace of two workers; `_partial`: at most one successful claim per fetched PENDING version |
| C08 | same | invariant by induction over steps |
| C09 | `pending` over an arbitrary listing | sorting lemmas |
| C10 | worker transition system with ghost history | invariant |
| C11 | same | invariant |
| C12 | worker transition system | invariant over steps |
| C13 | worker transition system, non-atomic sweep | invariant `started + armed ≤ N + W - 1`; witness trace for W=2 |
| C14 | worker transition system, one active worker after any history | invariant |
| C15 | `checkStop` branch by branch | case analysis |
| C16 | worker transition system | `_fails` trace; `_partial` invariant |
| C17 | directory as record of optional files | case analysis; `_fails` when a report is dropped |
| C18 | strings as `List Char`, `str.replace` | induction; `_fails` for ids containing `config_`; `_partial` otherwise |
| C19 | `parseUserResult` | decision logic |
| C20 | `evalTrial`, worker transition system | decision logic; `_fails` for mappings without loss |
| C21 | `gridAsk`; shuffle is any permutation depending on seed | permutation argument; `_fails` for seed None |
| C22 | `ask` of each optimizer | invariant over ask/report histories |
| C23 | promotion policies | sorting lemmas |
| C24 | `getConfigAndIds` | invariant over histories (contiguous ids make positional access right) |
| C25 | `rungMap` over ℝ | algebra |
| C26 | `configMap` | arithmetic |
| C27 | `bracketBudgetUsed` | Abel summation |
| C28 | `loadPrevious` folds | permutation invariance |
| C29 | `Domain` over ℝ | real analysis; `_fails` for the swapped log shortcut |
| C30 | same | `_fails` for log-integer domains; round trip for the rest |
| C31 | transformers | list lemmas |
| C32 | `ConfigEncoder` | list lemmas, uniqueness of sorted lists |
| C33 | parameters, random draws as inputs | order lemmas |
| C34 | parameters | case analysis; `_fails` for categorical |
| C35 | grid construction | list product lemmas; `_fails` for integer duplicates |
| C36 | `Settings.merge` as association lists | decision logic |
| C37 | nested documents as inductive type | structural induction |
| C38 | `_run_args` decision part | decision logic |
| C39 | `deduceType`, formatting and construction of each kind; `float` on texts is an arbitrary function | equivalence with an inductive description; `_fails` for `1e+3` |
| C40 | `getSummary` | fold lemmas; `_fails` for pending counts |
| C41 | chain walk with cache | well-founded recursion; `_fails` for a second run in the process |
| C42 | `PriorBand.samplingWeights` over ℝ, scores and argsort arbitrary | algebra; `_fails`: linear weights, zero scores |
| C43 | `Sampling.border`: bit masks of the corner numbers | bits of naturals, translation of 0 and 1 to bounds |
| C44 | `encode`, `outOfRange`, `threshold` (`Verif/Ifbo`) | fold with NaN; `_fails`: NaN hides losses out of range, crashes get the best score |
| C45 | `Seed`: generators, snapshot files, `sample_trial` on top of the worker transition system | replay simulation, induction over actions; `_fails` for entropy, initial designs, kills inside a sampling |
| C46 | `Create.step`/`act`/`run`: file operations of any number of creators of the four shared resources, with locks and kills; `IVal.stored`/`pyEq` for the info | induction over schedules; undisturbed calls step by step; counterexamples for races, kills, empty directories, tuples and unwritable infos |
| C47 | `_set_global_trial` | induction; `_fails` for malformed results |
| C48 | worker transition system | `_fails` trace (unbound counter); `_partial` after a first success |
| C49 | worker transition system with kills | `_fails` trace; `_partial` when in-progress trials do not count |
| C50 | lines of encoded entries | split/join lemmas |
| C51 | `writeTrialKilled` | `_fails` witness; `_partial` field-wise old-or-new |
| C52 | `writeTrial` with unrepresentable values | `_fails`, for all trials |
| C53 | `ask` of each multi-fidelity optimizer, exceptions as values | totality by the occupancy invariant; `_fails` for ignored failures and for ASHA with an early stopping rate |
| C54 | `hbAsk` | the loop over brackets skips only finished or blocked ones |
| C55 | parameters as records, methods as state changes with a raised flag | invariant over call sequences; `_fails` for `load_from` of integers |
| C56 | same | case analysis; `_fails` for integers |
| C57 | prior probabilities over ℝ | algebra |
| C58 | `clone` | invariant; `_fails` for a confidence set later |
| C59 | `SearchSpace` as sorted dictionary of parameters, attempts as lists of draws | list relations |
| C60 | `fromDict`, `serialize` | induction over the dictionary |
| C61 | `mutate` with the list of attempts | list relations; `_fails` with a parent |
| C62 | `crossover` | list relations; `_fails` for the exchange of categorical values |
| C63 | `defaultConfiguration` | induction over the parameters |
| C64 | `isEqualValue` | induction; `_fails` for transitivity and for float constants |
| C65 | `setFromDict` as state change with a raised flag | induction; `_fails` for atomicity |
| C66 | `runArgsOf` | decision logic; `_fails` for integer penalties |
| C67 | `runArgs`, `optimizerOf` | decision logic; `_fails` for `grid_search` and `None` |
| C68 | `spaceFromYaml` returning the dictionary left behind | idempotence of each formatting step |
| C69 | `pipelineSpaceOf` with `spaceFromYaml` | decision logic; `_fails` for parameters `path` and `name` |
| C70 | `Status`: rows of the data frame, `sort_values` as stable sort | sorting lemmas; `_fails` without a successful trial |
| C71 | `callArgs` in the worker transition system | lineage invariant; `_fails` for reserved names |
| C72 | `Seed/MFModel`: the multi-fidelity optimizers inside the worker transition system | refinement: executions yield histories (`Reach`); the theorems on histories carry over |
| C73 | `weightedSample`: loop over the samplers writing into the tensor | invariant over the loop; `_fails` with a border sampler |
| C74 | `makeCentered`, `priorRow` with arbitrary draws | algebra; `_fails` for low confidence and for categorical parameters |
| C75 | `samplePrior`: prior, encoder, translation and decoding | position of every name in both orders; `_fails` witness |
| C76 | `logProb` over arbitrary log densities | sortedness of the positions; `_fails` witnesses |
| C77 | `piboExpTerm`, `piboWeight`, `boAcquisition` over arbitrary values | real analysis; `_fails`: on the log scale the exponent is added |
| C78 | `initialDesign` over an arbitrary sampler | decoding lemma for several rows, counting; `_fails`: lower half of a Sobol sample |
| C79 | `encodeTrials`, `nanmedian` | filtering lemmas, median of a sorted list; `_fails` without a loss |
| C80 | `costCooling`, `coolingAlpha`, `costRound` | monotonicity; `_fails` for missing costs and overspent budgets |
| C81 | `optimizeAcq`: arguments for botorch | Cartesian product; `_fails`: zero restarts |
| C82 | `activateInc`, `findIncumbent` over the table of `MF` | reachability invariant, summation by rungs; `_fails`: activation is lost on promotion |
| C83 | `choice`, `choosePolicy`, `crossoverProbs`, `bracketProbs` | partial sums, algebra |
| C84 | `localMutation`, `customCrossover`, `gaussianCentre` over `SearchSpace` | pointwise relations over the parameters; `_fails`: categorical parameters in Gaussian sampling |
| C85 | `configDist`, `nearest`, `neighbourGo` over ℝ | Minkowski inequality by induction over the parameters, geometric growth of the radius; `_fails`: all configurations agree |
| C86 | `activeRung`, `trainRung`, `trainJoint`, `pendingRung`, `sampleNew` over the table of `MF` | induction over rungs, permutation of filtered lists; `_fails`: sampling from the surrogate raises |
| C87 | `adjust`, `init` over `FloatParam`, `IntParam`, `Domain` | floor arithmetic; `_fails`: default at the lower bound, one step, upper bound 1 |
| C88 | `ask`, `Reach` over histories of trials, casts of `Domain` computed in closed form | invariant over histories; `_fails`: integer fidelities with more than step + 1 steps, several workers |
| C89 | `acquire`, `keepHighest`, `tryBatch` | induction over samplers and over the sorted table |
| C90 | `sampler`, `samplerRec` with its cache, random numbers as a list | induction over the recursion: every cached text is the text of a tree |
| C91 | the same | induction over the tree; `_fails`: equal nonterminals of one production get the same subtree |
| C92 | `mutate`, `simpleMutate`, `bananasMutate`, `removeSubtree` on the characters of the text | tokens of the text located in the tree, bracket counting by induction over forests; `_fails`: terminal that ends with a nonterminal, root |
| C93 | `crossover`, `paramCrossover` | the same; `_fails`: subtree that is the whole second parent |
| C94 | `Grammar.init`, `setPrior`, `checkPrior` | case analysis; `_fails`: missing productions, negative probabilities |
| C95 | `computePrior`, reading the text character by character with a stack of candidate productions | induction over the derivation: candidates are the productions with the prefix read so far; `_fails`: log, prefixes, sampler |
| C96 | `prune`, `backtrack` on lists of nodes and edges | loop invariant: passed nodes have a predecessor and a successor, useful nodes stay; induction along the order |
| C97 | `results`, `resultsPlot`, `int` of ids with underscores | loop invariant over the sorted trials; the value of `int` on ids by induction over digits; `_fails`: order, deep rungs, failed trials |
| C98 | `statusCmd` over the summary of C40 | sorting by insertion keeps the list newest first; counting; `_fails`: pending trials |
| C99 | `infoConfig` on the life of a trial | case analysis over the ways an evaluation can end; `_fails`: unfinished trials |
| C100 | `parseKv`, `convertValue` | induction over items; decimal round trip of all integers; `_fails`: infinities, ids |
| C101 | `formatDuration` on microseconds | round trip with an independent reader |
| C102 | `call` of a topology: queue of nodes, merged inputs; the edge lists of the predefined topologies | loop invariant over the queue: visited nodes hold their value; `_fails`: fewer operations than edges, late inputs |
| C103 | `saveIn`, `loadFrom`, `loadCheckpoint` over the worker model, `Path.with_suffix` on characters | invariant of C41 for the directory, last save by induction over the saves; `_fails`: extensions, objects, two Lightning checkpoints |
| C104 | class variables of the logger as a state, calls, evaluations and other steps of a process (`Tb/Model.lean`) | invariant on the open writer over all steps and evaluations; `_fails`: two curve names, continued trial of a silent one, graph without the last result, second run in a process |
| C105 | the two loops of `_make_grid` as writes to a function of pixels (`Tb/GridModel.lean`) | loop invariant: the first k images are at their places, the rest is zero; cells are disjoint |
| C106 | `computePrior` of parameters and spaces over ℝ, `log_default` as a field of its own | change of variables in the integral, product over the loop; `_fails`: default of a log scale integer changed |
| C107 | `computeScores`: copies, defaults set to values, values set, `computePrior` | per parameter through all four steps, then over the space; `_fails`: categorical and log integer incumbents, fidelity |
| C108 | `process_seed`, union index, backfill and forward fill, mean (`Plot/Model.lean`) | length-then-alphabet order is numeric on decimal numerals; running minimum and sums by induction; fill lemma by induction on the index; `_fails`: crashed trial, continuation costs, anticipation between seeds, order of rungs, elapsed times, ragged seeds |
| C109 | `_compose_functions` at the level of characters: `skip_char`, `find_longest_match`, the three stacks (`Grammar/ComposeModel.lean`) | reading one symbol, then induction over trees with the effect on the stacks; whole grammars by induction over derivations; `_fails`: unit production, single primitive |
| C110 | nested topologies as lists of edges with operations, `flatten_graph` (`Arch/FlattenModel.lean`) | invariant of the loop that relates values of nodes of the nested and the flat graph, ranks in `ℚ` against cycles; existence and uniqueness of the function of a graph; `_fails`: `merge_fn` other than `sum` |
| C111 | `prune_graph` for operations on edges, over the model of C96 (`Arch/PruneModel.lean`) | C96 gives the nodes and edges; unreached nodes hold zero by induction over ranks; `_fails`: operations with bias, names of zero operations as parts of names |
| C112 | `_to_pytorch`: lines of the generated method as data, running them; `to_pytorch` of the API (`Arch/CodeModel.lean`) | invariant over the processed nodes: the names waiting at a node sum up to what arrives there; with C110 and C111; `_fails`: without `set_recursive_attribute` |
| C113 | `ConstrainedGrammar.sampler` with constraint functions and constraint objects as parameters (`Grammar/ConstrainedModel.lean`); the specification asks every argument of every node of the parse tree | both kinds are instances of one sampler with a rule; induction over the fuel and the parse tree, both directions; `_fails`: objects that return `None` |
| C114 | `_compute_current_context` on texts: the open nonterminals, `rfind`, the two loops over tokens; `mutate` (`Grammar/ContextModel.lean`) | texts of trees as tokens, induction over trees for each loop; places of arguments in trees; with C113; `_fails`: names inside names, additional brackets, later arguments |
| C115 | `crossover` with constraint functions (`Grammar/ContextModel.lean`) | with the places of C114; `_fails`: the literal `zero` |
| C116 | `_dict_structure_to_str` on characters: `str.replace`, the loop `_save_replace`, and `nltk`'s reader of grammars (`Grammar/DictModel.lean`); the specification splits a production at blanks, brackets and commas | the text as words with separators; a round of `replace` on words, the number of unquoted names decreases; reading a word, a line, the text; `_fails`: `op(a,b)`, undeclared names |
| C117 | worker transition system, amounts contributed by the stored reports | the amounts only grow; a worker that has to pass the check cannot; induction over the rest of the execution; witness with a second claim |
| C118 | worker transition system, one worker stepped with a policy for the undetermined inputs | symbolic execution of one round of the loop, induction over the missing evaluations |
| C119 | `fromConfigspace`, `addEntry`, `runSpace` over `ConfigSpace` objects (kinds, step width, conditions, forbidden clauses) | reduction to C59/C60 by an invariant of the two loops; `_fails`: step widths lost, one choice refused, clashing names |
| C120 | `Board.step`: listing, each read and the locked write as steps interleaved with the worker transition system | invariant on what a writer has read (each entry true at some earlier moment), reports never disappear, C70; `_fails`: stale writer |
| C121 | `status` over the summary of C40, printed lines and text files of the run directory | from C40 by cases on the flags; `_fails`: the files read for the flags are never written |
| C122 | `Param` with string, identifier, graph, nodes and default; the methods of `GraphParameter`/`GraphGrammar` over any graph function | invariant `Stands`/`Full` by induction over the operations; `_fails`: refused identifiers, comparison, default of a copy |
| C123 | `HpVal.stored`, `loadArchs`: `serializable_format` and `from_dict` for architecture parameters | induction over the configuration; `_fails`: the file holds the graph's nodes, none after sampling |
| C124 | `Verif/Repr/Model.lean`: `from_stringTree_to_graph_repr` for node-attributed graphs with pruning: the table of topologies, the loop over the text with its stack of nodes, removal and reconnection of nodes, pruning | `Repr/Spec.lean` draws the composition as operations between points and says which graph shows it. Invariant of the loop: the graph shows the picture drawn so far (`Repr/DrawLemmas`, `ExpandLemmas`), induction over the composition (`RunLemmas`), the text (`TextLemmas`), paths are ways (`FlowLemmas`), pruning by C96. Counterexamples for single operations and for edges out of order |
| C125 | `Verif/Sampling/NormalModel.lean`: `TruncatedNormal` with `erf` as an integral, clamped probabilities, `cdf`, `icdf`, `log_prob`, `mean` | `gaussianReal` conditioned on the bounds as specification; substitution in integrals, limits and intermediate values for `erfinv`, a lower bound for the mass between the bounds, then the effect of clamping |
| C126 | `Verif/Args/Command.lean`: the table of options, parsing, the call of `neps.run` with `Default` objects, its settings | specification of what a command line says that does not use the table; induction over the command line; the locals of the two calls are equal |
| C127 | `Verif/Args/Command.lean`: `get_root_directory`, the directory of a run | decision logic on top of C36 and C66; counterexamples for sections, tasks and stages |
| C128 | `Create.Watch`: `load_filebased_neps_state` as watchers next to the processes of `Create.Model` | simulation: erasing the looks gives the same run; invariants over schedules; kernel-evaluated counterexamples for wrong directories and overwriting |
| C129 | `Space/Enhance.lean`: `_enhance_priors` on the parameters of the space | what a sample is, on the parameter's scale; probabilities of the choices; failures by showing that inner parameters, copies and scores are equal before and after |
| C130 | `Space/NewConfig.lean`: the branch of `get_config_and_ids` that makes a new configuration, the uniform and the fixed prior policy | case analysis and the theorems about samples and default configurations; the share as Lebesgue measure of a rectangle |
| C131 | `Run/Model.lean`, any number of workers; `Run/TogetherSpec.lean`: through, effort, fair schedules | a measure that goes down with every step of every worker: allowances of rounds per worker, a global allowance for first claims, the length of directory listings bounded by the trials that can still be created |
| C132 | `Args/Info.lean`: the four functions of `SearcherConfigs` on a folder listed in any order | induction over the listing; the names of the package by evaluation |
| C133 | `Sampling/Whole.lean`: the samplers with an integer type for the result | explicit draws for every value; truncation of the unit interval gives zero, hence corners |
| C134 | `Space/Equal.lean`: `Hp.Equal`, `SearchSpace.Equal`, over the hyperparameters of `Space/Param.lean` | Case analysis over the kinds of parameters and the calls; the lists of names by counting (`Subperm`); the two failures are concrete parameters. |
| C135 | `Cache.open`, `Cache.sync`, `cstepW`: workers with the trials they keep; opening and syncing a trial are separate steps; a claim can time out | simulation: a kept trial with the stored version has the stored content (except between evaluation and report); each step is zero, one or (when opening fails) several steps of the workers of `Run/Model.lean`; `_fails` for a lock timeout during a claim |
| C136 | `optimizerOf`, `runOptimizer` of `Args/Searcher.lean` | through the precedence theorem for settings (C36); `_fails` for the settings of the run and for spaces in files |
| C137 | `Verif/Budget/Model.lean`: the state file, its version and the copies of the processes (`write`, `read`, `open'`, `sync`, `put`), and the operations launch, ask, report (`step`, `run`); the answer of the optimizer is any function of what it is told | invariant by induction over the history: the file, unless emptied, and every copy with the current version hold the limits of the first launch and the sum of the charged costs (`C137_told`); with storable kept values the events of each step are known exactly (`C137_all_charged`, `C137_is_told`, and `C137_shared_state_fails`: equal events with an optimizer that keeps nothing). Negations: restart with another limit, used evaluations, unstorable state, two workers (in the model of the workers) |
| C138 | `Verif/Locks/Model.lean`: every operation as the list of locks it takes and releases, with the two places where code of the user runs; any number of processes, exceptions and kills at any point | programs are well nested and take locks in a fixed order (optimizer state, seed, others), proved by induction over the trials; invariants over schedules; no deadlock by the highest lock somebody waits for; termination by the number of instructions left. Negations: a hook that looks at the run, a slow optimizer |
| C139 | `Verif/Grammar/CPriorModel.lean`: `ConstrainedGrammar.compute_prior` as a loop over the text with the stack of candidate productions and `current_derivations`, a dict from the length of the stack to the operations recorded so far; the factors are collected, their product or the sum of their logarithms is the result. `CPriorSpec.lean`: the probabilities of the choices of the sampler, node by node. | Induction over parse trees: reading the text of a sequence of subtrees multiplies by the probabilities of their choices and leaves the dict as it was (`Setting.text`). Real code: wrong or raising for text based functions, excluded trees, none roots, mixed arguments and objects (`C139_*_fails`). |
| C140 | `Verif/Args/Construct.lean`: the constructors of all classes in `SearcherMapping` as lists of levels, each with its signature, the arguments of `super().__init__`, the checks, the attributes it assigns and the brackets it builds; `construct` runs them. `ConstructSpec.lean`: the settings of every class, their values, valid values. Assumed: the limit of the stopping rate, the adjusted space of ifBO (modelled in `Verif.Ifbo`) and whether foreign policies can be called are parameters | the value of an attribute is traced symbolically through the levels (`origin`, `bracketOrigin`), proved correct by induction over the levels for all arguments, and compared with the table of the specification, which is a finite list of names; the successful calls are characterised level by level (`Halving`), with idempotence of `_enhance_priors` for the brackets. Negations: dropped error values, model settings, misspelled settings of random search, grid search |
| C141 | `Verif/Process/Model.lean`: programs that call `neps.run`, register callbacks, raise, catch and are interrupted, also within objectives (mutual inductive `Code`/`Evals`), run on the three global variables of `neps/runtime.py`, with the events as the observable effect. Which trials a run evaluates is given with the program | mutual induction over programs; invariants: while the slot is occupied nothing starts and it stays (`exec_some`), reports come in blocks (`Heard`, `Closed`). Negations: interrupts, invalid results, nested runs, the state outside of runs |
| C142 | `Verif/Arch/BuildModel.lean`: `_build` as the loop over the edges in topological order that updates the items of the edges, `compile` as the creation of one operation per edge; `set_recursive_attribute`, the classes and what arguments they take are parameters | invariant of the loop: an edge is not visited before the edges that lead to its start; induction along the edges for uniqueness and for the numbers of channels |
| C143 | `Verif/Args/Init.lean`: `init_config` on a file system of documents, the two templates as the documents their text denotes; `InitSpec.lean`: filling in values at places of a template | computation with symbolic values, through the theorems on run arguments (C36), on inline spaces (C69) and on descriptions of parameters (C39). Negation: `--state-machine` |
| C144 | `Verif/Seed/ReadModel.lean`: `sample_trial` with single reads that interleave with the steps of the other workers, which wait only for the lock of the optimizer state | invariant: what was read so far and the present contents of the other trials are a history; reports that were missed are moved behind the ask; `C144_atomic` ties the model to the one-step sampling of C45 and C72 |
| C145 | `Verif/Bo/Weighted.lean`: acquisition functions as objects with pending configurations, `WeightedAcquisition` moving them outwards, `forward` with torch's broadcasting, the nesting of prior and cost weights | computation of `forward` for one and two weightings, for every base acquisition function; `C145_prior_and_cost_fails`: with a prior, costs and a pending configuration there is no single value; monotonicity from monotone reductions |
| C146 | `Verif/Bo/Kernel.lean`: the choice of columns and kernels of the default Gaussian process, the kernels as formulas over the reals | induction over the loop that splits the columns; monotonicity of the exponential and of sums |
| C147 | The worker transition system of `Run/Model.lean`; `lastClaimer`, `Evaluated`, `Understood`, `Answered` in `Run/SurvivorSpec.lean` | Invariants over all transitions (`Run/Survivor.lean`): the found, fetched and claimed trials of the worker with the latest claim stay pending resp. current, since only a claim can change a pending trial; every unevaluated trial is in the hands of a worker with the current version. With the liveness result C131 the last claimer must have returned |
| C148 | `gridSearch` on top of the runs with generators of `Seed/Model.lean` | The proposals are a prefix of the shuffled grid by induction over executions (`Seed/GridProps.lean`); an endless schedule of the model with generators is one of the worker transition system, to which the lemma behind C147 applies: a worker that finds no trial has seen the grid exhausted. Without a seed a counterexample |
| C149 | the optimizers of `Seed/Model.lean` and `Seed/MFModel.lean` in endless schedules (`Seed/Endless.lean`) | Sampling stores a new trial: for random search and Bayesian optimization because the ids are 1, 2, 3 and so on (induction), for the multi-fidelity optimizers by C72; then C147. If every call of the objective returns, no trial fails (`Run/Success.lean`). A counterexample for ignored failures |
| C150 | `FileLocker.lock`'s exception handler (`Locks/Message.lean`) over the model of locks of C138: the exception leaves the `with` statements of all locks held | invariant over runs: a process that waits either has no lock or has the one of the optimizer state outermost; the two wrong messages are witnessed |
| C151 | `neps/env.py` (`Locks/Env.lean`): `get_env`, `is_nullable`, the ten variables | case analysis for every environment and every `float` on texts |
| C152 | `load_neps_errors` (`Cli/Errors.lean`) on the states of the model of runs | invariant over runs: a stored trial that crashed was reported with its error; C11 for the order; the kill is witnessed |
| C153 | `Verif/Plot/Curves.lean`: rows of `config_data.csv`, splitting of ids, shift of levels, sorting by time, grouping, what is drawn in the flat plot and in space, footnote, limits of the axis | every evaluation has exactly one place (permutation of the range of colours), each line is its configuration in the order of starts, order of lines by first evaluation, counts of the footnote; lines in space `_partial`; witnesses for single points (drawn at 0), for the axis (levels, not fidelities) and for runs without levels (exception) |
| C154 | `Verif/Seed/Files.lean`: the files of `ReaderWriterSeedSnapshot` as bytes, capture and restore with any number of CUDA devices, `SeedSnapshot.__eq__`, the order of the writes | round trip of 64-bit and 32-bit numbers and of whole files; restoring on any machine; every kill point (`_partial`); witnesses for fewer devices, a stale file of the devices, a mixture after a kill, equality of snapshots with different numbers of devices |
| C155 | `Verif/Bo/Pool.lean`: the loops of `MutationSampler.create_pool` with patience and hashes, `_propose_location`, `RandomSampler`; outcomes of mutations and samples are inputs | induction over the loops (origin, shares, size of the pool), sorting lemmas for the batch and the proposal; witnesses for repeated and refused mutants, parts above one, a batch of none |
| C156 | `Bo/Acquisition.lean`: the value of a candidate in the plain, logarithmic and augmented variants, zero variances and exceptions included, the incumbent and the confidence bound, over the reals; specification `Bo/AcquisitionSpec.lean`: integrals against Mathlib's Gaussian measure | reduction to the standard normal distribution, the antiderivative of `z φ(z)`, completing the square for logarithms; monotonicity in the variance by convexity and symmetry. Refuted: LogEI as registered always raises; the posterior incumbent is an observation; a certain prediction at the target raises; beta cannot be updated |
| C157 | `Bo/PriorWeighted.lean`: the loop over the candidates with and without logarithms, the shift of negative values, and the decay from the observed configurations | monotonicity of powers and logarithms, the limit of `beta / t`. Refuted: a density of exactly one is not weighted; negative values without logarithms reverse the preference |
| C158 | `Arch/EdgeModel.lean`: a heap of dictionaries and edges as pairs of references; all operations of an edge; specification `Arch/EdgeSpec.lean`: families of copies, from the history | an invariant by induction over histories: private dictionaries are held once and shared ones exactly by a family. Refuted: updating from another edge merges the two; a name can be private and shared at once; internal items can be removed; a refused update keeps its first items |
| C159 | `Arch/ScopeModel.lean`: graphs with graphs as operations (mutual inductive types), `_get_child_graphs` with `collapse`, `set_scope`, the constructors of the topologies and their bottom-up composition. Not modelled: subgraphs at nodes, graphs embedded in primitive operations. | Structural induction over operations and architectures. **Refuted** for every nested topology: `collapse` descends into graphs, since a graph can be iterated over, and yields node numbers, which have no name to sort by. `C159_built_iff_fails` is exact: an architecture can be built iff it has at most one level of topologies. |
| C160 | `Arch/PrimModel.lean`: channels, height and width of a tensor through every predefined operation; the size formula of convolution and pooling, slicing, sums with broadcasting and concatenation are PyTorch's, taken as documented; the call of `nn.Module.__init__`. Not modelled: values, batch dimension, training mode of batch normalisation. | `PrimSpec.lean` says what an operation of a given stride and channels has to do; rounding up is specified by two inequalities, proved unique and multiplicative. Induction over sequences. **Refuted**: no operation can be constructed (`C160_construct_fails`), hence no edge (`C160_edge_fails`; C102, C109-C112, C142, C158 and C159 take edges as constructed, as with a repaired `AbstractPrimitive`); kernel size 1 with stride 2 gives one row and column too many for every image; further `_fails` for fixed padding and ignored channels. |
| C161 | `Ifbo/DownloadModel.lean`: a transition system of processes that test, fetch, write the archive piece by piece and unpack it piece by piece, with kills between any two steps. Not modelled: several files in the archive, the format of the archive, creating the directory. | Invariant over orderly executions (`Orderly`: processes one after the other, no kill while unpacking), progress by induction on the pieces left. **Refuted** without these restrictions; `C161_never_repaired_fails` holds for all continuations of every damaged state. |
| C162 | `Overwrite/Model.lean`: the directories of the trials with their versions, the workers and what they hold in memory; starting a worker with or without `overwrite_working_directory`, getting a trial, storing a report, kills | invariants by induction over histories (versions are never used twice, who holds the version of a stored trial evaluates its configuration); with nobody evaluating at an overwrite, every evaluating worker holds the current version of its trial; refuted when an old worker is still evaluating (it leaves a directory without a trial, which stops the new run), when one is idle (old search space), and for parallel workers with the flag |
| C163 | `Space/Continue.lean`: reading all stored configurations with `from_dict`, cloning one and setting its fidelity | induction over the stored entries with an invariant that allows out-of-range integers, which `load_from` accepts and `clone` refuses; `C163_new_parameter_fails` for a parameter without stored value |
| C164 | `MF/Draw.lean`: the weights, their normalisation and `numpy.random.choice` as a search in the cumulated probabilities, over the rationals | induction over cumulated sums; the intervals of the brackets partition [0, 1) |
| C165 | `Ifbo/CacheModel.lean`: the global cache of models and the constructor of the surrogate, for any sequence of calls | invariant of the cache (entries fit their keys, keys and identities differ) and persistence of entries; negations for the device and for files that are gone |
| C166 | `Ifbo/ShapeModel.lean`: the shapes of the tensors through the surrogate and what can be done with the scores; `ask` with these shapes. Assumed of the package `ifbo`: logits of shape (n, 1, bins), and `pi`/`mean` drop the last dimension | computation of the shape for every n; agreement with `ask` unless there is one candidate, and `C166_one_candidate_fails` when there is exactly one |
