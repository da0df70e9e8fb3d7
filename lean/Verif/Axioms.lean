import Verif.Store.Props
import Verif.Trial.Props
import Verif.Trial.FileProps
import Verif.Run.Props
import Verif.Run.Policy
import Verif.Opt.Simple
import Verif.MF.Props
import Verif.Space.DomainProps
import Verif.Space.EncodeProps
import Verif.Space.ParamProps
import Verif.Space.SpaceProps
import Verif.Space.CompareProps
import Verif.Space.Prior
import Verif.Space.PriorSpec
import Verif.Space.PriorProps
import Verif.Space.ScoreProps
import Verif.Space.GridProps
import Verif.Args.YamlProps
import Verif.Args.SettingsProps
import Verif.Args.SearcherProps
import Verif.Args.SpaceYamlProps
import Verif.Status.Props
import Verif.Status.ParallelProps
import Verif.Run.LineageProps
import Verif.Seed.Props
import Verif.Seed.MFProps
import Verif.Create.Props
import Verif.Sampling.Model
import Verif.Sampling.Spec
import Verif.Sampling.BorderProps
import Verif.Sampling.WeightedProps
import Verif.Sampling.PriorProps
import Verif.Sampling.AlignProps
import Verif.Sampling.LogProbProps
import Verif.Bo.Model
import Verif.Bo.DesignProps
import Verif.Bo.DataProps
import Verif.Bo.AcqProps
import Verif.PriorBand.Model
import Verif.PriorBand.Spec
import Verif.PriorBand.WeightProps
import Verif.PriorBand.ActivationProps
import Verif.PriorBand.ChoiceProps
import Verif.PriorBand.Vary
import Verif.PriorBand.VaryProps
import Verif.PriorBand.DistProps
import Verif.PriorBand.ModelBased
import Verif.PriorBand.ModelBasedProps
import Verif.Ifbo.Model
import Verif.Ifbo.Spec
import Verif.Ifbo.Casts
import Verif.Ifbo.Levels
import Verif.Ifbo.Acquire
import Verif.Ifbo.History
import Verif.Ifbo.DataProps
import Verif.Ifbo.Props
import Verif.Grammar.Model
import Verif.Grammar.Spec
import Verif.Grammar.TextLemmas
import Verif.Grammar.Locate
import Verif.Grammar.SampleLemmas
import Verif.Grammar.Props
import Verif.Grammar.Cases
import Verif.Grammar.PriorModel
import Verif.Grammar.PriorProps
import Verif.Grammar.ComposeModel
import Verif.Grammar.ComposeLemmas
import Verif.Grammar.ComposeProps
import Verif.Grammar.ConstrainedModel
import Verif.Grammar.ConstrainedLemmas
import Verif.Grammar.ConstrainedRule
import Verif.Grammar.ConstrainedProps
import Verif.Grammar.ContextModel
import Verif.Grammar.ContextLemmas
import Verif.Grammar.CollectLemmas
import Verif.Grammar.ContextSpec
import Verif.Grammar.ContextPlace
import Verif.Grammar.ContextProps
import Verif.Grammar.ContextCross
import Verif.Arch.Model
import Verif.Arch.Spec
import Verif.Arch.Props
import Verif.Cli.Model
import Verif.Cli.Spec
import Verif.Cli.Lemmas
import Verif.Cli.ResultsProps
import Verif.Cli.StatusProps
import Verif.Cli.TextProps
import Verif.Arch.TopoModel
import Verif.Arch.TopoLemmas
import Verif.Arch.TopoProps
import Verif.Arch.FlattenModel
import Verif.Arch.FlattenLemmas
import Verif.Arch.NetLemmas
import Verif.Arch.FlattenProps
import Verif.Arch.PruneModel
import Verif.Arch.PruneLemmas
import Verif.Arch.CodeModel
import Verif.Arch.CodeLemmas
import Verif.Arch.CodeProps
import Verif.Run.Checkpoint
import Verif.Run.CheckpointProps
import Verif.Tb.Model
import Verif.Tb.Props
import Verif.Tb.GridModel
import Verif.Tb.GridProps
import Verif.Plot.Model
import Verif.Plot.Spec
import Verif.Plot.Lemmas
import Verif.Plot.CurveLemmas
import Verif.Plot.Props
import Verif.Grammar.DictModel
import Verif.Grammar.DictSpec
import Verif.Grammar.DictLemmas
import Verif.Grammar.DictRead
import Verif.Grammar.DictProps
import Verif.Run.OvershootProps
import Verif.Run.ProgressProps
import Verif.Run.TogetherProps
import Verif.Args.ConfigSpaceProps
import Verif.Arch.ParamProps
import Verif.Repr.Model
import Verif.Repr.Spec
import Verif.Repr.CellLemmas
import Verif.Repr.DrawLemmas
import Verif.Repr.ExpandLemmas
import Verif.Repr.RunLemmas
import Verif.Repr.TextLemmas
import Verif.Repr.FlowLemmas
import Verif.Repr.Props
import Verif.Repr.Builtin
import Verif.Sampling.NormalProps
import Verif.Args.DirectoryProps
import Verif.Create.WatchProps
import Verif.Space.EnhanceProps
import Verif.Space.NewConfigProps
import Verif.Space.ConfidenceProps
import Verif.Args.Info
import Verif.Args.InfoProps
import Verif.Sampling.Whole
import Verif.Sampling.WholeProps
import Verif.Space.IllegalProps
import Verif.Space.EqualProps
import Verif.Run.CacheModel
import Verif.Run.CacheSpec
import Verif.Run.CacheLemmas
import Verif.Run.CacheSim
import Verif.Run.CacheProps
import Verif.Args.OwnSearcherProps
import Verif.Budget.Props
import Verif.Locks.Props
import Verif.Grammar.CPriorModel
import Verif.Grammar.CPriorSpec
import Verif.Grammar.CPriorLemmas
import Verif.Grammar.CPriorLoop
import Verif.Grammar.CPriorText
import Verif.Grammar.CPriorProps
import Verif.Args.ConstructProps
import Verif.Process.Props
import Verif.Arch.BuildProps
import Verif.Args.InitProps
import Verif.Seed.ReadProps
import Verif.Bo.WeightedProps
import Verif.Bo.KernelProps
import Verif.Run.SurvivorProps
import Verif.Seed.GridProps
import Verif.Run.Success
import Verif.Seed.Endless
import Verif.Seed.JobProps
import Verif.Locks.EnvProps
import Verif.Locks.MessageProps
import Verif.Cli.ErrorsProps
import Verif.Plot.CurvesProps
import Verif.Seed.FilesProps
import Verif.Bo.PoolProps
import Verif.Bo.AcquisitionProps
import Verif.Bo.PriorWeightedProps
import Verif.Arch.EdgeProps
import Verif.Arch.ScopeModel
import Verif.Arch.ScopeProps
import Verif.Arch.PrimModel
import Verif.Arch.PrimSpec
import Verif.Arch.PrimProps
import Verif.Ifbo.DownloadModel
import Verif.Ifbo.DownloadProps
import Verif.Overwrite.Props
import Verif.Space.Continue
import Verif.Space.ContinueProps
import Verif.MF.Draw
import Verif.MF.DrawProps
import Verif.Ifbo.CacheModel
import Verif.Ifbo.CacheProps
import Verif.Ifbo.ShapeModel
import Verif.Ifbo.ShapeProps
import Verif.Create.WatchReason
import Verif.Run.SpentSpec

/-!
# Axioms

The axioms of every theorem named in `MANIFEST.json`.
-/

#print axioms Neps.Store.C01_stale_put_rejected
#print axioms Neps.Store.C02_synced_returns_latest
#print axioms Neps.Store.C02_load_returns_latest
#print axioms Neps.Store.C03_acquire_loses_no_update
#print axioms Neps.Store.C04_crash_in_put_partial
#print axioms Neps.Store.C04_crash_in_put_fails
#print axioms Neps.Store.C05_crash_in_new_partial
#print axioms Neps.Store.C05_crash_in_new_fails
#print axioms Neps.Store.C06_creation_never_overwrites
#print axioms Neps.Store.C06_one_initial_value_wins
#print axioms Neps.Run.C07_evaluated_once_partial
#print axioms Neps.Run.C07_sequential_evaluated_once
#print axioms Neps.Run.C07_evaluated_once_fails
#print axioms Neps.Run.C08_nothing_lost
#print axioms Neps.Run.C08_ids_kept
#print axioms Neps.Run.C09_n_oldest
#print axioms Neps.Run.C09_worker_takes_oldest
#print axioms Neps.Run.C10_budget_is_sum
#print axioms Neps.Cli.C100_refused
#print axioms Neps.Cli.C100_last_wins
#print axioms Neps.Cli.C100_roundtrip_partial
#print axioms Neps.Cli.C100_text
#print axioms Neps.Cli.C100_inf_fails
#print axioms Neps.Cli.C100_id_fails
#print axioms Neps.Cli.C101_duration
#print axioms Neps.Cli.C101_same
#print axioms Verif.Arch.C102_builtin
#print axioms Verif.Arch.C102_breadth_first
#print axioms Verif.Arch.C102_sequential
#print axioms Verif.Arch.C102_small
#print axioms Verif.Arch.C102_missing_operation_fails
#print axioms Verif.Arch.C102_late_input_fails
#print axioms Neps.Run.C103_continue_partial
#print axioms Neps.Run.C103_directory_partial
#print axioms Neps.Run.C103_lightning
#print axioms Neps.Run.C103_extension_fails
#print axioms Neps.Run.C103_object_fails
#print axioms Neps.Run.C103_latest_fails
#print axioms Neps.Tb.C104_log_partial
#print axioms Neps.Tb.C104_returns
#print axioms Neps.Tb.C104_disabled
#print axioms Neps.Tb.C104_switch
#print axioms Neps.Tb.C104_names_fails
#print axioms Neps.Tb.C104_first_logged_nothing_fails
#print axioms Neps.Tb.C104_incumbent_partial
#print axioms Neps.Tb.C104_own_result_fails
#print axioms Neps.Tb.C104_second_run_fails
#print axioms Neps.Tb.C105_grid
#print axioms Neps.Tb.C105_first
#print axioms Neps.Tb.C105_empty_fails
#print axioms Verif.Space.C106_density
#print axioms Verif.Space.SearchSpace.C106_product_partial
#print axioms Verif.Space.SearchSpace.C106_log_partial
#print axioms Verif.Space.SearchSpace.C106_closer_partial
#print axioms Verif.Space.C106_set_default_fails
#print axioms Verif.Space.SearchSpace.C107_prior_score
#print axioms Verif.Space.SearchSpace.C107_scores_partial
#print axioms Verif.Space.SearchSpace.C107_incumbent_ignored_fails
#print axioms Verif.Space.SearchSpace.C107_log_integer_fails
#print axioms Verif.Space.C107_fidelity_fails
#print axioms Neps.Plot.C108_evaluations_partial
#print axioms Neps.Plot.C108_single_partial
#print axioms Neps.Plot.C108_reached_partial
#print axioms Neps.Plot.C108_fidelity_axis_partial
#print axioms Neps.Plot.C108_crashed_fails
#print axioms Neps.Plot.C108_continuation_ignored_fails
#print axioms Neps.Plot.C108_anticipates_fails
#print axioms Neps.Plot.C108_rungs_order_fails
#print axioms Neps.Plot.C108_elapsed_added_fails
#print axioms Neps.Plot.C108_ragged_fails
#print axioms Verif.Gram.C109_compose_partial
#print axioms Verif.Gram.C109_grammar_partial
#print axioms Verif.Gram.C109_unit_production_fails
#print axioms Verif.Gram.C109_primitive_fails
#print axioms Neps.Run.C11_error_log
#print axioms Verif.Arch.C110_flatten_partial
#print axioms Verif.Arch.C110_builtin_partial
#print axioms Verif.Arch.C110_merge_fails
#print axioms Verif.Arch.C111_pruned
#print axioms Verif.Arch.C111_zero_name
#print axioms Verif.Arch.C111_function_partial
#print axioms Verif.Arch.C111_bias_fails
#print axioms Verif.Arch.C111_zero_name_fails
#print axioms Verif.Arch.C112_generated
#print axioms Verif.Arch.C112_module_partial
#print axioms Verif.Arch.C112_no_zero_partial
#print axioms Verif.Arch.C112_disconnected
#print axioms Verif.Arch.C112_recursive_attribute_fails
#print axioms Verif.Gram.C113_function
#print axioms Verif.Gram.C113_object
#print axioms Verif.Gram.C113_prior
#print axioms Verif.Gram.C113_function_complete
#print axioms Verif.Gram.C113_object_complete
#print axioms Verif.Gram.C113_no_constraint_fails
#print axioms Verif.Gram.C114_mutate_partial
#print axioms Verif.Gram.C114_lenient_partial
#print axioms Verif.Gram.C114_complete_partial
#print axioms Verif.Gram.C114_context_fails
#print axioms Verif.Gram.C114_brackets_fails
#print axioms Verif.Gram.C114_later_fails
#print axioms Verif.Gram.C115_crossover_partial
#print axioms Verif.Gram.C115_zero_fails
#print axioms Verif.Gram.C116_structure_partial
#print axioms Verif.Gram.C116_comma_fails
#print axioms Verif.Gram.C116_undeclared_fails
#print axioms Neps.Run.C117_overshoot_each_partial
#print axioms Neps.Run.C117_overshoot_total_partial
#print axioms Neps.Run.C117_time_overshoot_partial
#print axioms Neps.Run.C117_overshoot_fails
#print axioms Neps.Run.C118_alone_finishes
#print axioms Neps.Run.C118_alone_ends
#print axioms Neps.Run.C118_alone_goes_on
#print axioms Verif.Args.C119_space_partial
#print axioms Verif.Args.C119_sampled_partial
#print axioms Verif.Args.C119_loaded_partial
#print axioms Verif.Args.C119_refused
#print axioms Verif.Args.C119_default_is_prior
#print axioms Verif.Args.C119_steps_fails
#print axioms Verif.Args.C119_one_choice_fails
#print axioms Verif.Args.C119_clash_fails
#print axioms Neps.Run.C12_worker_limit_exact
#print axioms Neps.Status.C120_files_partial
#print axioms Neps.Status.C120_stale_fails
#print axioms Neps.Status.C121_status_partial
#print axioms Neps.Status.C121_flags_fails
#print axioms Verif.Arch.C122_history
#print axioms Verif.Arch.C122_copies
#print axioms Verif.Arch.C122_sampled
#print axioms Verif.Arch.C122_equal_partial
#print axioms Verif.Arch.C122_invalid_fails
#print axioms Verif.Arch.C122_compare_fails
#print axioms Verif.Arch.C122_default_fails
#print axioms Verif.Arch.C123_identifiers_partial
#print axioms Verif.Arch.C123_stored_fails
#print axioms Verif.Arch.C123_nodes_fails
#print axioms Verif.Repr.C124_graph_partial
#print axioms Verif.Repr.C124_builtin
#print axioms Verif.Repr.C124_single_operation_fails
#print axioms Verif.Repr.C124_edge_order_fails
#print axioms Verif.Sampling.TruncNormal.C125_log_prob
#print axioms Verif.Sampling.TruncNormal.C125_density
#print axioms Verif.Sampling.TruncNormal.C125_range
#print axioms Verif.Sampling.TruncNormal.C125_cdf
#print axioms Verif.Sampling.TruncNormal.C125_samples
#print axioms Verif.Sampling.TruncNormal.C125_mean
#print axioms Verif.Sampling.TruncNormal.C125_monotone
#print axioms Verif.Sampling.C125_prior
#print axioms Verif.Args.C126_accepts
#print axioms Verif.Args.C126_call_partial
#print axioms Verif.Args.C126_values
#print axioms Verif.Args.C126_kwargs_fails
#print axioms Verif.Args.C127_option_partial
#print axioms Verif.Args.C127_file_partial
#print axioms Verif.Args.C127_no_directory
#print axioms Verif.Args.C127_task_fails
#print axioms Verif.Args.C127_section_fails
#print axioms Neps.Create.C128_looks_do_not_disturb
#print axioms Neps.Create.C128_shows_what_was_stored
#print axioms Neps.Create.C128_look_at_started_run
#print axioms Neps.Create.C128_no_torn_file
#print axioms Neps.Create.C128_raises_when_missing
#print axioms Neps.Create.C128_undisturbed_look
#print axioms Neps.Create.C128_wrong_directory_fails
#print axioms Neps.Create.C128_overwrite_fails
#print axioms Neps.Create.C128_folders_stay
#print axioms Verif.Space.C129_accepted
#print axioms Verif.Space.C129_rejected
#print axioms Verif.Space.C129_float
#print axioms Verif.Space.C129_categorical
#print axioms Verif.Space.C129_narrower
#print axioms Verif.Space.C129_rest
#print axioms Verif.Space.C129_integer_fails
#print axioms Verif.Space.C129_scores_fails
#print axioms Verif.Space.C129_own_confidence_fails
#print axioms Neps.Run.C13_total_bound
#print axioms Neps.Run.C13_one_worker
#print axioms Neps.Run.C13_limit_exceeded
#print axioms Verif.Space.C130_default_first
#print axioms Verif.Space.C130_total
#print axioms Verif.Space.C130_source
#print axioms Verif.Space.C130_shares
#print axioms Verif.Space.C130_defaults_ignored
#print axioms Verif.Space.C130_partial_priors_fails
#print axioms Neps.Run.C131_per_worker
#print axioms Neps.Run.C131_total
#print axioms Neps.Run.C131_all_through
#print axioms Neps.Run.C131_stopped_reached
#print axioms Neps.Run.C131_job_done
#print axioms Verif.Args.Info.C132_searchers
#print axioms Verif.Args.Info.C132_searchers_run
#print axioms Verif.Args.Info.C132_algorithms
#print axioms Verif.Args.Info.C132_from_algorithm
#print axioms Verif.Args.Info.C132_kwargs_partial
#print axioms Verif.Args.Info.C132_kwargs_package_partial
#print axioms Verif.Args.Info.C132_kwargs_fails
#print axioms Verif.Args.Info.C132_unknown_fails
#print axioms Verif.Sampling.C133_uniform
#print axioms Verif.Sampling.C133_sobol_partial
#print axioms Verif.Sampling.C133_border
#print axioms Verif.Sampling.C133_sobol_fails
#print axioms Verif.Sampling.C133_prior_fails
#print axioms Verif.Sampling.C133_mixture_fails
#print axioms Verif.Sampling.C133_mixture_partial
#print axioms Verif.Space.C134_equivalence
#print axioms Verif.Space.C134_meaning
#print axioms Verif.Space.C134_same_answers
#print axioms Verif.Space.C134_sample_partial
#print axioms Verif.Space.C134_weights
#print axioms Verif.Space.C134_integer_prior_fails
#print axioms Verif.Space.C134_copy_partial
#print axioms Verif.Space.C134_copy_fails
#print axioms Neps.Run.C135_same_runs_partial
#print axioms Neps.Run.C135_sees_what_is_stored_partial
#print axioms Neps.Run.C135_nothing_lost_partial
#print axioms Neps.Run.C135_total_bound_partial
#print axioms Neps.Run.C135_worker_limit_partial
#print axioms Neps.Run.C135_budget_is_sum_partial
#print axioms Neps.Run.C135_lock_timeout_fails
#print axioms Verif.Args.C136_object_used
#print axioms Verif.Args.C136_class_called
#print axioms Verif.Args.C136_other_class_rejected
#print axioms Verif.Args.C136_class_settings_fails
#print axioms Verif.Args.C136_class_space_file_fails
#print axioms Neps.Budget.C137_told
#print axioms Neps.Budget.C137_limits_partial
#print axioms Neps.Budget.C137_all_charged
#print axioms Neps.Budget.C137_is_told
#print axioms Neps.Budget.C137_round_trip
#print axioms Neps.Budget.C137_shared_state_fails
#print axioms Neps.Budget.C137_other_limit_fails
#print axioms Neps.Budget.C137_used_evaluations_fails
#print axioms Neps.Budget.C137_unstorable_fails
#print axioms Neps.Budget.C137_two_workers_fails
#print axioms Neps.Budget.C137_failed_join
#print axioms Neps.Locks.C138_exclusive
#print axioms Neps.Locks.C138_objective_without_locks
#print axioms Neps.Locks.C138_one_asks
#print axioms Neps.Locks.C138_released
#print axioms Neps.Locks.C138_no_deadlock_partial
#print axioms Neps.Locks.C138_all_finish_partial
#print axioms Neps.Locks.C138_step
#print axioms Neps.Locks.C138_looking_fails
#print axioms Neps.Locks.C138_slow_optimizer_fails
#print axioms Verif.Gram.C139_product_partial
#print axioms Verif.Gram.C139_log_partial
#print axioms Verif.Gram.C139_sampler
#print axioms Verif.Gram.C139_distribution
#print axioms Verif.Gram.C139_text_fails
#print axioms Verif.Gram.C139_excluded_fails
#print axioms Verif.Gram.C139_root_fails
#print axioms Verif.Gram.C139_mixed_fails
#print axioms Verif.Gram.C139_object_fails
#print axioms Neps.Run.C14_cost_below_limit
#print axioms Neps.Run.C14_cost_below_limit_num
#print axioms Neps.Run.C14_nan_disables_limit
#print axioms Verif.Args.C140_settings_partial
#print axioms Verif.Args.C140_defaults
#print axioms Verif.Args.C140_named_partial
#print axioms Verif.Args.C140_run_settings_partial
#print axioms Verif.Args.C140_accepted
#print axioms Verif.Args.C140_space
#print axioms Verif.Args.C140_random_search
#print axioms Verif.Args.C140_bayesian_optimization
#print axioms Verif.Args.C140_ifbo
#print axioms Verif.Args.C140_unknown_partial
#print axioms Verif.Args.C140_brackets
#print axioms Verif.Args.C140_named_names
#print axioms Verif.Args.C140_unknown_fails
#print axioms Verif.Args.C140_errors_fails
#print axioms Verif.Args.C140_model_settings_fails
#print axioms Verif.Args.C140_grid_search_fails
#print axioms Neps.Proc.C141_trial
#print axioms Neps.Proc.C141_state_partial
#print axioms Neps.Proc.C141_reported_partial
#print axioms Neps.Proc.C141_notified
#print axioms Neps.Proc.C141_once
#print axioms Neps.Proc.C141_only_reported
#print axioms Neps.Proc.C141_interrupt_fails
#print axioms Neps.Proc.C141_invalid_fails
#print axioms Neps.Proc.C141_nested_fails
#print axioms Neps.Proc.C141_outside_fails
#print axioms Verif.Arch.C142_arguments
#print axioms Verif.Arch.C142_unique
#print axioms Verif.Arch.C142_created
#print axioms Verif.Arch.C142_fit
#print axioms Verif.Arch.C142_name
#print axioms Verif.Arch.C142_first_only
#print axioms Verif.Args.C143_kept
#print axioms Verif.Args.C143_created
#print axioms Verif.Args.C143_state_machine_fails
#print axioms Verif.Args.C143_basic
#print axioms Verif.Args.C143_complete
#print axioms Verif.Args.C143_found
#print axioms Neps.Seed.C144_atomic
#print axioms Neps.Seed.C144_runs
#print axioms Neps.Seed.C144_seen
#print axioms Neps.Seed.C144_snapshot_fails
#print axioms Neps.Seed.C144_histories
#print axioms Neps.Seed.C144_asked_history
#print axioms Neps.Seed.C144_continuation
#print axioms Neps.Seed.C144_numbering
#print axioms Neps.Seed.C144_quota
#print axioms Neps.Seed.C144_best
#print axioms Neps.Seed.C144_hb_sampling_partial
#print axioms Neps.Seed.C144_ahb_sampling_partial
#print axioms Verif.Bo.C145_plain
#print axioms Verif.Bo.C145_prior
#print axioms Verif.Bo.C145_cost
#print axioms Verif.Bo.C145_prior_and_cost_partial
#print axioms Verif.Bo.C145_prior_and_cost_fails
#print axioms Verif.Bo.C145_likelier_not_worse
#print axioms Verif.Bo.C145_cheaper_not_worse
#print axioms Verif.Bo.C146_columns
#print axioms Verif.Bo.C146_closer_more_similar
#print axioms Verif.Bo.C146_itself
#print axioms Verif.Bo.C146_symmetric
#print axioms Verif.Bo.C146_choices_unordered
#print axioms Verif.Bo.C146_parameter_order
#print axioms Neps.Run.C147_last_meets_no_conflict
#print axioms Neps.Run.C147_no_trial_lost
#print axioms Neps.Run.C147_job_done
#print axioms Neps.Seed.C148_prefix
#print axioms Neps.Seed.C148_no_point_twice
#print axioms Neps.Seed.C148_stopped_complete
#print axioms Neps.Seed.C148_whole_grid
#print axioms Neps.Seed.C148_unseeded_fails
#print axioms Neps.Seed.C149_random_search
#print axioms Neps.Seed.C149_bayesian
#print axioms Neps.Seed.C149_hyperband_partial
#print axioms Neps.Seed.C149_async_hyperband_partial
#print axioms Neps.Seed.C149_successive_halving_partial
#print axioms Neps.Seed.C149_asha_partial
#print axioms Neps.Seed.C149_ignore_errors_fails
#print axioms Neps.Run.C15_ignore
#print axioms Neps.Run.C15_ignore_run
#print axioms Neps.Run.C15_raise_any
#print axioms Neps.Run.C15_raise_any_run
#print axioms Neps.Run.C15_stop_returns
#print axioms Neps.Run.C15_worker_policies
#print axioms Neps.Run.C15_launch
#print axioms Neps.Locks.C150_traceback
#print axioms Neps.Locks.C150_message_partial
#print axioms Neps.Locks.C150_message
#print axioms Neps.Locks.C150_other
#print axioms Neps.Locks.C150_wrong_lock_fails
#print axioms Neps.Locks.C150_own_lock_fails
#print axioms Neps.Locks.C151_waiting
#print axioms Neps.Locks.C151_import_fails
#print axioms Neps.Locks.C151_used
#print axioms Neps.Locks.C151_separate
#print axioms Neps.Cli.C152_order
#print axioms Neps.Cli.C152_crashed_partial
#print axioms Neps.Cli.C152_no_run
#print axioms Neps.Cli.C152_killed_fails
#print axioms Neps.Plot.C153_curves
#print axioms Neps.Plot.C153_order
#print axioms Neps.Plot.C153_footnote
#print axioms Neps.Plot.C153_space_partial
#print axioms Neps.Plot.C153_single_fails
#print axioms Neps.Plot.C153_axis_fails
#print axioms Neps.Plot.C153_ids_fails
#print axioms Neps.Seed.Files.C154_stored
#print axioms Neps.Seed.Files.C154_restored_partial
#print axioms Neps.Seed.Files.C154_cpu
#print axioms Neps.Seed.Files.C154_equal_partial
#print axioms Neps.Seed.Files.C154_killed_partial
#print axioms Neps.Seed.Files.C154_devices_fails
#print axioms Neps.Seed.Files.C154_stale_fails
#print axioms Neps.Seed.Files.C154_killed_fails
#print axioms Neps.Seed.Files.C154_equal_fails
#print axioms Verif.Bo.Pool.C155_batch
#print axioms Verif.Bo.Pool.C155_sample
#print axioms Verif.Bo.Pool.C155_parents
#print axioms Verif.Bo.Pool.C155_pool
#print axioms Verif.Bo.Pool.C155_size
#print axioms Verif.Bo.Pool.C155_full
#print axioms Verif.Bo.Pool.C155_duplicates_fails
#print axioms Verif.Bo.Pool.C155_refused_fails
#print axioms Verif.Bo.Pool.C155_part_fails
#print axioms Verif.Bo.Pool.C155_none_fails
#print axioms Verif.Bo.Acq.C156_improvement
#print axioms Verif.Bo.Acq.C156_log_partial
#print axioms Verif.Bo.Acq.C156_log_fails
#print axioms Verif.Bo.Acq.C156_augmented
#print axioms Verif.Bo.Acq.C156_order
#print axioms Verif.Bo.Acq.C156_best
#print axioms Verif.Bo.Acq.C156_posterior_partial
#print axioms Verif.Bo.Acq.C156_posterior_fails
#print axioms Verif.Bo.Acq.C156_certain_fails
#print axioms Verif.Bo.Acq.C156_bound
#print axioms Verif.Bo.Acq.C156_beta_fails
#print axioms Verif.Bo.Weigh.C157_prefers_partial
#print axioms Verif.Bo.Weigh.C157_prefers_log_partial
#print axioms Verif.Bo.Weigh.C157_better
#print axioms Verif.Bo.Weigh.C157_better_log
#print axioms Verif.Bo.Weigh.C157_fades
#print axioms Verif.Bo.Weigh.C157_fades_log_partial
#print axioms Verif.Bo.Weigh.C157_count
#print axioms Verif.Bo.Weigh.C157_count_fidelity
#print axioms Verif.Bo.Weigh.C157_one_fails
#print axioms Verif.Bo.Weigh.C157_negative_fails
#print axioms Verif.Bo.Weigh.C157_log_one_fails
#print axioms Verif.Arch.Edge.C158_private_partial
#print axioms Verif.Arch.Edge.C158_written
#print axioms Verif.Arch.Edge.C158_shared_partial
#print axioms Verif.Arch.Edge.C158_removed_partial
#print axioms Verif.Arch.Edge.C158_copied_partial
#print axioms Verif.Arch.Edge.C158_op_partial
#print axioms Verif.Arch.Edge.C158_refused
#print axioms Verif.Arch.Edge.C158_update_fails
#print axioms Verif.Arch.Edge.C158_both_fails
#print axioms Verif.Arch.Edge.C158_internal_fails
#print axioms Verif.Arch.Edge.C158_half_fails
#print axioms Verif.Arch.Scope.C159_flat_partial
#print axioms Verif.Arch.Scope.C159_nested_fails
#print axioms Verif.Arch.Scope.C159_compile_fails
#print axioms Verif.Arch.Scope.C159_built_iff_fails
#print axioms Neps.Run.C16_life_cycle_partial
#print axioms Neps.Run.C16_moves_forward_partial
#print axioms Neps.Run.C16_life_cycle_fails
#print axioms Verif.Arch.Prim.C160_shape_partial
#print axioms Verif.Arch.Prim.C160_exchange_partial
#print axioms Verif.Arch.Prim.C160_sequence_partial
#print axioms Verif.Arch.Prim.C160_concat
#print axioms Verif.Arch.Prim.C160_construct_partial
#print axioms Verif.Arch.Prim.C160_construct_fails
#print axioms Verif.Arch.Prim.C160_edge_fails
#print axioms Verif.Arch.Prim.C160_pointwise_fails
#print axioms Verif.Arch.Prim.C160_kernel_fails
#print axioms Verif.Arch.Prim.C160_maxpool_fails
#print axioms Verif.Arch.Prim.C160_channels_fails
#print axioms Verif.Arch.Prim.C160_block_fails
#print axioms Verif.Arch.Prim.C160_zero_fails
#print axioms Verif.Ifbo.Download.C161_complete_partial
#print axioms Verif.Ifbo.Download.C161_raises_partial
#print axioms Verif.Ifbo.Download.C161_alone_partial
#print axioms Verif.Ifbo.Download.C161_never_repaired_fails
#print axioms Verif.Ifbo.Download.C161_kill_fails
#print axioms Verif.Ifbo.Download.C161_race_fails
#print axioms Verif.Ifbo.Download.C161_both_fails
#print axioms Verif.Ifbo.Download.C161_version_fails
#print axioms Neps.Overwrite.C162_nothing_old_partial
#print axioms Neps.Overwrite.C162_own_result
#print axioms Neps.Overwrite.C162_starts_empty
#print axioms Neps.Overwrite.C162_stored_partial
#print axioms Neps.Overwrite.C162_samples_partial
#print axioms Neps.Overwrite.C162_blocked
#print axioms Neps.Overwrite.C162_search_space_partial
#print axioms Neps.Overwrite.C162_stale_worker_fails
#print axioms Neps.Overwrite.C162_search_space_fails
#print axioms Neps.Overwrite.C162_parallel_fails
#print axioms Verif.Space.SearchSpace.C163_unknown_refused
#print axioms Verif.Space.SearchSpace.C163_illegal_refused
#print axioms Verif.Space.SearchSpace.C163_promoted_legal
#print axioms Verif.Space.SearchSpace.C163_legal_continues
#print axioms Verif.Space.SearchSpace.C163_complete_partial
#print axioms Verif.Space.SearchSpace.C163_new_parameter_fails
#print axioms Neps.MF.C164_distribution
#print axioms Neps.MF.C164_bracket_exists
#print axioms Neps.MF.C164_share
#print axioms Neps.MF.C164_equal_budget
#print axioms Neps.MF.C164_antitone
#print axioms Verif.Ifbo.Cache.C165_right_model
#print axioms Verif.Ifbo.Cache.C165_same_object
#print axioms Verif.Ifbo.Cache.C165_loaded_once
#print axioms Verif.Ifbo.Cache.C165_recovers
#print axioms Verif.Ifbo.Cache.C165_device_partial
#print axioms Verif.Ifbo.Cache.C165_device_fails
#print axioms Verif.Ifbo.Cache.C165_held_fails
#print axioms Verif.Ifbo.C166_scores_partial
#print axioms Verif.Ifbo.C166_single_fails
#print axioms Verif.Ifbo.C166_fantasies
#print axioms Verif.Ifbo.C166_ask_partial
#print axioms Verif.Ifbo.C166_one_candidate_fails
#print axioms Verif.Ifbo.C166_first_configuration_fails
#print axioms Neps.C17_write_read
#print axioms Neps.C17_recovered_equal
#print axioms Neps.C17_write_history_read
#print axioms Neps.C17_dropped_report_fails
#print axioms Neps.C18_listed_ids_partial
#print axioms Neps.C18_id_survives_iff
#print axioms Neps.C18_generated_ids
#print axioms Neps.C18_infix_fails
#print axioms Neps.C19_number_result
#print axioms Neps.C19_number_error
#print axioms Neps.C19_mapping_without_loss
#print axioms Neps.C19_mapping_result
#print axioms Neps.C19_mapping_accepted_iff
#print axioms Neps.C20_exception_is_recorded
#print axioms Neps.C20_result_is_recorded
#print axioms Neps.Run.C20_worker_continues
#print axioms Neps.C20_malformed_result_fails
#print axioms Neps.Opt.C21_grid_complete
#print axioms Neps.Opt.C21_grid_unseeded_fails
#print axioms Neps.MF.C22_mf_id_fresh
#print axioms Neps.MF.C22_id_text
#print axioms Neps.Opt.C22_grid_id_fresh
#print axioms Neps.Opt.C22_random_id_fresh
#print axioms Neps.MF.C23_sync_promotion
#print axioms Neps.MF.C23_sh_promotion
#print axioms Neps.MF.C23_sync_best
#print axioms Neps.MF.C23_sync_quota
#print axioms Neps.MF.C23_asha_promotion_partial
#print axioms Neps.MF.C23_ahb_promotion_partial
#print axioms Neps.MF.C23_async_eligible
#print axioms Neps.MF.C23_asha_promotes_failed_fails
#print axioms Neps.MF.C24_promotion_continues
#print axioms Neps.MF.C24_new_configuration
#print axioms Neps.MF.C25_rung_budgets
#print axioms Neps.MF.C25_rung_budgets_int
#print axioms Neps.MF.C26_bracket_capacities
#print axioms Neps.MF.C26_code_brackets
#print axioms Neps.MF.C27_bracket_finished
#print axioms Neps.MF.C28_observe_order
#print axioms Neps.MF.C28_ask_order
#print axioms Verif.Space.C29_cast_in_bounds_partial
#print axioms Verif.Space.C29_cast_in_bounds_iff
#print axioms Verif.Space.C29_log_lift_fails
#print axioms Verif.Space.C29_translate_in_bounds_partial
#print axioms Verif.Space.C29_translate_rejects
#print axioms Verif.Space.C29_bin_value
#print axioms Verif.Space.C30_float_round_trip
#print axioms Verif.Space.C30_unit_round_trip
#print axioms Verif.Space.C30_integer_round_trip
#print axioms Verif.Space.C30_indices_round_trip
#print axioms Verif.Space.C30_bin_round_trip
#print axioms Verif.Space.C30_minmax_round_trip_partial
#print axioms Verif.Space.C30_minmax_unit_partial
#print axioms Verif.Space.C30_log_integer_fails
#print axioms Verif.Space.C30_single_value_fails
#print axioms Verif.Space.C30_minmax_log_lift_fails
#print axioms Verif.Space.C31_integer_round_trip
#print axioms Verif.Space.C31_integer_injective
#print axioms Verif.Space.C31_unknown_rejected
#print axioms Verif.Space.C31_integer_decode_total
#print axioms Verif.Space.C31_unit_round_trip_partial
#print axioms Verif.Space.C31_unit_injective
#print axioms Verif.Space.C31_single_choice_fails
#print axioms Verif.Space.C32_round_trip
#print axioms Verif.Space.C32_column_order
#print axioms Verif.Space.C32_alphabetical
#print axioms Verif.Space.C32_default_round_trip_partial
#print axioms Verif.Space.C32_empty_encoder_fails
#print axioms Verif.Space.C33_float_sample
#print axioms Verif.Space.C33_float_neighbours
#print axioms Verif.Space.C33_float_neighbours_progress
#print axioms Verif.Space.C33_float_mutate
#print axioms Verif.Space.C33_float_crossover
#print axioms Verif.Space.C33_float_grid
#print axioms Verif.Space.C33_int_sample
#print axioms Verif.Space.C33_int_sample_total
#print axioms Verif.Space.C33_int_neighbours
#print axioms Verif.Space.C33_int_mutate
#print axioms Verif.Space.C33_int_crossover
#print axioms Verif.Space.C33_int_grid
#print axioms Verif.Space.C33_cat_sample
#print axioms Verif.Space.C33_cat_sample_total
#print axioms Verif.Space.C33_cat_neighbours
#print axioms Verif.Space.C33_cat_mutate
#print axioms Verif.Space.C33_cat_crossover
#print axioms Verif.Space.C33_simple_mutation_fails
#print axioms Verif.Space.C34_float_set_value
#print axioms Verif.Space.C34_int_set_value
#print axioms Verif.Space.C34_const_set_value
#print axioms Verif.Space.C34_cat_set_value_partial
#print axioms Verif.Space.C34_categorical_fails
#print axioms Verif.Space.SearchSpace.C35_grid_mem
#print axioms Verif.Space.SearchSpace.C35_grid_values
#print axioms Verif.Space.SearchSpace.C35_grid_legal
#print axioms Verif.Space.SearchSpace.C35_grid_length
#print axioms Verif.Space.SearchSpace.C35_grid_once_partial
#print axioms Verif.Space.SearchSpace.C35_duplicates_fails
#print axioms Verif.Args.C36_precedence
#print axioms Verif.Args.C36_complete
#print axioms Verif.Args.C37_leaf_names
#print axioms Verif.Args.C37_leaf_sound
#print axioms Verif.Args.C37_leaf_complete_partial
#print axioms Verif.Args.C37_special
#print axioms Verif.Args.C37_special_complete_partial
#print axioms Verif.Args.C37_duplicate_fails
#print axioms Verif.Args.C37_null_overrides_fails
#print axioms Verif.Args.C38_default
#print axioms Verif.Args.C38_default_total
#print axioms Verif.Args.C38_run_default
#print axioms Verif.Args.C38_kwargs
#print axioms Verif.Args.C38_named
#print axioms Verif.Args.C38_dict
#print axioms Verif.Args.C38_own_file
#print axioms Verif.Args.C38_own_file_name
#print axioms Verif.Args.C38_error_settings
#print axioms Verif.Args.C39_describes
#print axioms Verif.Args.C39_kind
#print axioms Verif.Args.C39_kind_unique
#print axioms Verif.Args.C39_rejected
#print axioms Verif.Args.C39_scientific
#print axioms Verif.Args.C39_space
#print axioms Verif.Args.C39_mixed_bounds
#print axioms Verif.Args.C39_plus_exponent_fails
#print axioms Neps.Status.C40_counts_partial
#print axioms Neps.Status.C40_best
#print axioms Neps.Status.C40_succeeds
#print axioms Neps.Status.C40_pending_fails
#print axioms Neps.Status.C40_info_dict_fails
#print axioms Neps.Status.C40_run_partial
#print axioms Neps.Run.C41_one_run_partial
#print axioms Neps.Run.C41_second_run_fails
#print axioms Verif.PriorBand.C42_distribution
#print axioms Verif.PriorBand.C42_inactive
#print axioms Verif.PriorBand.C42_random_share
#print axioms Verif.PriorBand.C42_random_antitone
#print axioms Verif.PriorBand.C42_constant
#print axioms Verif.PriorBand.C42_decay
#print axioms Verif.PriorBand.C42_dynamic
#print axioms Verif.PriorBand.C42_top
#print axioms Verif.PriorBand.C42_defined
#print axioms Verif.PriorBand.C42_linear_fails
#print axioms Verif.PriorBand.C42_base_rung_fails
#print axioms Verif.PriorBand.C42_zero_scores_fails
#print axioms Verif.Sampling.C43_all_corners
#print axioms Verif.Sampling.C43_some_corners
#print axioms Verif.Sampling.C43_any_corners
#print axioms Verif.Sampling.C43_shape
#print axioms Verif.Sampling.C43_wrong_length
#print axioms Verif.Ifbo.C44_data
#print axioms Verif.Ifbo.C44_range_partial
#print axioms Verif.Ifbo.C44_range_fails
#print axioms Verif.Ifbo.C44_crash_fails
#print axioms Verif.Ifbo.C44_threshold
#print axioms Verif.Ifbo.C88_float_ask
#print axioms Verif.Ifbo.C88_int_predecessor_fails
#print axioms Neps.Seed.C45_proposals_stored
#print axioms Neps.Seed.C45_trials_are_proposals
#print axioms Neps.Seed.C45_resume_partial
#print axioms Neps.Seed.C45_reproducible_partial
#print axioms Neps.Seed.C45_random_search
#print axioms Neps.Seed.C45_multi_fidelity
#print axioms Neps.Seed.C45_seeded_grid
#print axioms Neps.Seed.C45_one_process_partial
#print axioms Neps.Seed.C45_killed_sampling_fails
#print axioms Neps.Seed.C45_unseeded_grid_fails
#print axioms Neps.Seed.C45_initial_design_fails
#print axioms Neps.Seed.C45_interleave_fails
#print axioms Neps.Create.C46_existing_run
#print axioms Neps.Create.C46_new_run
#print axioms Neps.Create.C46_no_info
#print axioms Neps.Create.C46_info_is_permanent
#print axioms Neps.Create.C46_one_info
#print axioms Neps.Create.C46_late_caller_partial
#print axioms Neps.Create.C46_same_info_never_refused
#print axioms Neps.Create.C46_restart_partial
#print axioms Neps.Create.C46_same_arguments_partial
#print axioms Neps.Create.C46_racing_infos_fails
#print axioms Neps.Create.C46_concurrent_start_fails
#print axioms Neps.Create.C46_empty_directory_fails
#print axioms Neps.Create.C46_killed_write_fails
#print axioms Neps.Create.C46_tuple_fails
#print axioms Neps.Create.C46_unwritable_info_fails
#print axioms Neps.Run.C47_slot_partial
#print axioms Neps.Run.C47_slot_after_malformed_fails
#print axioms Neps.Run.C48_lost_claim_partial
#print axioms Neps.Run.C48_lost_claim_fails
#print axioms Neps.Run.C49_restart_partial
#print axioms Neps.Run.C49_restart_fails
#print axioms Neps.C50_error_log_roundtrip
#print axioms Neps.C51_torn_write_partial
#print axioms Neps.C51_torn_write_fails
#print axioms Neps.C52_unstorable_result_fails
#print axioms Neps.C52_uncopyable_exception_fails
#print axioms Neps.MF.C53_hb_answers_partial
#print axioms Neps.MF.C53_sh_answers_partial
#print axioms Neps.MF.C53_asha_answers_partial
#print axioms Neps.MF.C53_ahb_answers_partial
#print axioms Neps.MF.C53_sh_ignore_errors_fails
#print axioms Neps.MF.C53_asha_early_stopping_fails
#print axioms Neps.MF.C54_new_only_if_blocked
#print axioms Neps.MF.C54_new_at_lowest_rung
#print axioms Neps.MF.C54_one_bracket
#print axioms Verif.Space.C55_float_always_legal
#print axioms Verif.Space.C55_int_always_legal_partial
#print axioms Verif.Space.C55_int_load_fails
#print axioms Verif.Space.C55_cat_legal_partial
#print axioms Verif.Space.C56_float_set_default
#print axioms Verif.Space.C56_cat_set_default
#print axioms Verif.Space.C56_int_set_default_partial
#print axioms Verif.Space.C56_int_default_fails
#print axioms Verif.Space.C57_prior_probabilities
#print axioms Verif.Space.C58_float_clone_partial
#print axioms Verif.Space.C58_int_clone_partial
#print axioms Verif.Space.C58_cat_clone_partial
#print axioms Verif.Space.C58_confidence_fails
#print axioms Verif.Space.SearchSpace.C59_sample
#print axioms Verif.Space.SearchSpace.C59_sample_total
#print axioms Verif.Space.SearchSpace.C60_from_dict
#print axioms Verif.Space.SearchSpace.C60_unknown_rejected
#print axioms Verif.Space.SearchSpace.C60_round_trip
#print axioms Verif.Space.SearchSpace.C61_mutate
#print axioms Verif.Space.SearchSpace.C61_mutate_progress
#print axioms Verif.Space.SearchSpace.C61_parent_fails
#print axioms Verif.Space.SearchSpace.C62_crossover
#print axioms Verif.Space.SearchSpace.C62_crossover_progress
#print axioms Verif.Space.SearchSpace.C62_categorical_exchange_fails
#print axioms Verif.Space.SearchSpace.C63_default
#print axioms Verif.Space.SearchSpace.C63_missing_raises
#print axioms Verif.Space.SearchSpace.C63_default_total
#print axioms Verif.Space.SearchSpace.C64_equal_iff
#print axioms Verif.Space.SearchSpace.C64_symmetric
#print axioms Verif.Space.SearchSpace.C64_reflexive
#print axioms Verif.Space.SearchSpace.C64_float_constants_fails
#print axioms Verif.Space.SearchSpace.C64_not_transitive_fails
#print axioms Verif.Space.SearchSpace.C65_set_from_dict
#print axioms Verif.Space.SearchSpace.C65_nothing_rejected
#print axioms Verif.Space.SearchSpace.C65_atomic_fails
#print axioms Verif.Space.SearchSpace.C65_confidence
#print axioms Verif.Space.SearchSpace.C65_confidence_rejected
#print axioms Verif.Space.SearchSpace.C65_illegal_rejected
#print axioms Verif.Args.C66_accepted
#print axioms Verif.Args.C66_unknown
#print axioms Verif.Args.C66_wrong_type
#print axioms Verif.Args.C66_integer_penalty_fails
#print axioms Verif.Args.C38_grid_search_fails
#print axioms Verif.Args.C38_none_fails
#print axioms Verif.Args.C68_read_again
#print axioms Verif.Args.C68_names
#print axioms Verif.Args.C68_unchanged_fails
#print axioms Verif.Args.C69_inline_partial
#print axioms Verif.Args.C69_file
#print axioms Verif.Args.C69_path_name_fails
#print axioms Neps.Status.C70_csv_partial
#print axioms Neps.Status.C70_save
#print axioms Neps.Status.C70_all_failed_fails
#print axioms Neps.Status.C70_pending_fails
#print axioms Neps.Status.sortRows_sorts
#print axioms Neps.Run.C71_arguments_partial
#print axioms Neps.Run.C71_reserved_name_fails
#print axioms Neps.Seed.C72_histories
#print axioms Neps.Seed.C72_continuation
#print axioms Neps.Seed.C72_numbering
#print axioms Neps.Seed.C72_quota
#print axioms Neps.Seed.C72_best
#print axioms Neps.Seed.C72_hb_sampling_partial
#print axioms Neps.Seed.C72_ahb_sampling_partial
#print axioms Neps.Seed.C72_sh_sampling_partial
#print axioms Neps.Seed.C72_asha_sampling_partial
#print axioms Verif.Sampling.C73_rows
#print axioms Verif.Sampling.C73_probabilities
#print axioms Verif.Sampling.C73_rejected
#print axioms Verif.Sampling.C73_border_fails
#print axioms Verif.Sampling.C74_categorical
#print axioms Verif.Sampling.C74_mode_iff
#print axioms Verif.Sampling.C74_numerical
#print axioms Verif.Sampling.C74_density
#print axioms Verif.Sampling.C74_samples
#print axioms Verif.Sampling.C74_low_confidence_fails
#print axioms Verif.Sampling.C74_categorical_parameter_fails
#print axioms Verif.Sampling.C75_own_prior_partial
#print axioms Verif.Sampling.C75_columns
#print axioms Verif.Sampling.C75_aligned_iff
#print axioms Verif.Sampling.C75_mixed_up_fails
#print axioms Verif.Sampling.C76_value_partial
#print axioms Verif.Sampling.C76_raises_iff
#print axioms Verif.Sampling.C76_single
#print axioms Verif.Sampling.C76_sum_fails
#print axioms Verif.Sampling.C76_missing_default_fails
#print axioms Verif.Sampling.C76_flat
#print axioms Verif.Bo.C77_exponent
#print axioms Verif.Bo.C77_forgotten
#print axioms Verif.Bo.C77_no_prior
#print axioms Verif.Bo.C77_weight_plain_partial
#print axioms Verif.Bo.C77_prior_does_not_fade_fails
#print axioms Verif.Bo.C77_scales_disagree_fails
#print axioms Verif.Bo.C78_fidelity
#print axioms Verif.Bo.C78_default_first
#print axioms Verif.Bo.C78_samples_partial
#print axioms Verif.Bo.C78_rejected
#print axioms Verif.Bo.C78_half_space_fails
#print axioms Verif.Bo.C78_fewer_fails
#print axioms Verif.Bo.C79_rows
#print axioms Verif.Bo.C79_targets_partial
#print axioms Verif.Bo.C79_no_loss_fails
#print axioms Verif.Bo.C80_cheaper_preferred
#print axioms Verif.Bo.C80_better_preferred
#print axioms Verif.Bo.C80_no_effect_at_end
#print axioms Verif.Bo.C80_scales_agree
#print axioms Verif.Bo.C80_unused_share_partial
#print axioms Verif.Bo.C80_missing_cost_fails
#print axioms Verif.Bo.C80_overspent_fails
#print axioms Verif.Bo.C81_every_combination
#print axioms Verif.Bo.C81_too_many_rejected
#print axioms Verif.Bo.C81_continuous
#print axioms Verif.Bo.C81_restarts_partial
#print axioms Verif.Bo.C81_no_restarts_fails
#print axioms Verif.PriorBand.C82_active_iff
#print axioms Verif.PriorBand.C82_activates
#print axioms Verif.PriorBand.C82_bracket_done
#print axioms Verif.PriorBand.C82_incumbent
#print axioms Verif.PriorBand.C82_incumbent_exists
#print axioms Verif.PriorBand.C82_stays_active_fails
#print axioms Verif.PriorBand.C83_choice_iff
#print axioms Verif.PriorBand.C83_choice_total
#print axioms Verif.PriorBand.C83_zero_never
#print axioms Verif.PriorBand.C83_policy
#print axioms Verif.PriorBand.C83_inactive_never_inc
#print axioms Verif.PriorBand.C83_crossover_defined
#print axioms Verif.PriorBand.C83_crossover
#print axioms Verif.PriorBand.C83_crossover_prior
#print axioms Verif.PriorBand.C83_brackets
#print axioms Verif.PriorBand.C83_brackets_ratio
#print axioms Verif.PriorBand.C84_mutation
#print axioms Verif.PriorBand.C84_mutation_total
#print axioms Verif.PriorBand.C84_crossover
#print axioms Verif.PriorBand.C84_crossover_self
#print axioms Verif.PriorBand.C84_gaussian_partial
#print axioms Verif.PriorBand.C84_gaussian_categorical_fails
#print axioms Verif.PriorBand.C85_distance
#print axioms Verif.PriorBand.C85_metric
#print axioms Verif.PriorBand.C85_bounded
#print axioms Verif.PriorBand.C85_nearest
#print axioms Verif.PriorBand.C85_nearest_fails
#print axioms Verif.PriorBand.C85_sphere
#print axioms Verif.PriorBand.C85_sphere_ends
#print axioms Verif.PriorBand.C85_sphere_zero_fails
#print axioms Verif.PriorBand.C86_active
#print axioms Verif.PriorBand.C86_init_over
#print axioms Verif.PriorBand.C86_train_rung
#print axioms Verif.PriorBand.C86_train_joint
#print axioms Verif.PriorBand.C86_pending
#print axioms Verif.PriorBand.C86_pending_joint
#print axioms Verif.PriorBand.C86_joint_init
#print axioms Verif.PriorBand.C86_joint_init_over_fails
#print axioms Verif.PriorBand.C86_initial
#print axioms Verif.PriorBand.C86_model_fails
#print axioms Verif.PriorBand.C86_prior_weight
#print axioms Verif.Ifbo.C87_adjust_float
#print axioms Verif.Ifbo.C87_adjust_int
#print axioms Verif.Ifbo.C87_accepted_iff
#print axioms Verif.Ifbo.C87_default_fails
#print axioms Verif.Ifbo.C87_single_step_fails
#print axioms Verif.Ifbo.C87_upper_one_fails
#print axioms Verif.Ifbo.C88_increment_fails
#print axioms Verif.Ifbo.C88_float_history
#print axioms Verif.Ifbo.C88_float_total
#print axioms Verif.Ifbo.C88_int_history_partial
#print axioms Verif.Ifbo.C88_int_ask_partial
#print axioms Verif.Ifbo.C88_accepted
#print axioms Verif.Ifbo.C88_parallel_fails
#print axioms Verif.Ifbo.C89_acquire
#print axioms Verif.Ifbo.C89_acquire_total
#print axioms Verif.Gram.C90_sampled
#print axioms Verif.Gram.C90_prior
#print axioms Verif.Gram.C91_complete_partial
#print axioms Verif.Gram.C91_siblings_fails
#print axioms Verif.Gram.C91_complete_fails
#print axioms Verif.Gram.C92_simple
#print axioms Verif.Gram.C92_bananas
#print axioms Verif.Gram.C92_remove
#print axioms Verif.Gram.C92_clash_fails
#print axioms Verif.Gram.C92_simple_root_fails
#print axioms Verif.Gram.C92_bananas_root_fails
#print axioms Verif.Gram.C93_crossover
#print axioms Verif.Gram.C93_gives_up
#print axioms Verif.Gram.C93_root_fails
#print axioms Verif.Gram.C94_prior_iff
#print axioms Verif.Gram.C94_checks_fail
#print axioms Verif.Gram.C94_dangling_fails
#print axioms Verif.Gram.C94_negative_fails
#print axioms Verif.Gram.C95_product_partial
#print axioms Verif.Gram.C95_log_fails
#print axioms Verif.Gram.C95_prefix_raises_fails
#print axioms Verif.Gram.C95_prefix_wrong_fails
#print axioms Verif.Gram.C95_sampler_fails
#print axioms Verif.Arch.C96_pruned
#print axioms Verif.Arch.C96_output_with_successor_fails
#print axioms Neps.Cli.C97_numbered_partial
#print axioms Neps.Cli.C97_rungs_partial
#print axioms Neps.Cli.C97_plot_partial
#print axioms Neps.Cli.C97_same_best
#print axioms Neps.Cli.C97_sampling_order_fails
#print axioms Neps.Cli.C97_deep_rungs_fails
#print axioms Neps.Cli.C97_failed_trial_fails
#print axioms Neps.Cli.C97_error_value_fails
#print axioms Neps.Cli.C98_table
#print axioms Neps.Cli.C98_counts_partial
#print axioms Neps.Cli.C98_best
#print axioms Neps.Cli.C98_pending_fails
#print axioms Neps.Cli.C98_no_best
#print axioms Neps.Cli.C99_finished
#print axioms Neps.Cli.C99_unknown
#print axioms Neps.Cli.C99_unfinished_fails
