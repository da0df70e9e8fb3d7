import Verif.Args.SearcherProps

/-!
# C136: a searcher given by the user is the one that is used
-/

namespace Verif.Args

open Verif.Space (Dict Hp SearchSpace)

/-- **C136**: an optimizer object given by the user is
used as it is, whatever else the call says. The space of the call and the arguments for the searcher
are ignored. -/
theorem C136_object_used {env : Env} {call y : Dict Py} {id : String} (hc : call.keys.Nodup)
    (hw : "working_directory" ∉ call.keys) (hy : YamlSettings env call y)
    (he : Essential (effective call y))
    (hs : effective call y "searcher" = some (.obj (.optInst id))) :
    runOptimizer env call = some (.instance id) := by
  obtain ⟨r, kw, h1, h2, h3, h4, h5, h6⟩ := runSettings_yaml hc hw hy
  unfold runOptimizer
  rw [h5 he]
  simp only [Option.bind_eq_bind, Option.bind_some]
  unfold optimizerOf
  rw [h2 "searcher" (by decide) (by decide), hs, h3]

/-- **C136**: a class of optimizers given by the user (in the YAML file or explicitly) is called with
the space of the run and exactly the arguments for the searcher, where explicit ones win over the YAML
file; it is recorded under its name, as the choice of the user. -/
theorem C136_class_called {env : Env} {call y : Dict Py} {c : String} {d : Dict Hp}
    {sp : SearchSpace} (hc : call.keys.Nodup) (hw : "working_directory" ∉ call.keys)
    (hy : YamlSettings env call y) (he : Essential (effective call y))
    (hs : effective call y "searcher" = some (.obj (.optClass c)))
    (hspace : effective call y "pipeline_space" = some (.obj (.space d)))
    (hm : SearchSpace.make d = some sp) :
    ∃ b, runOptimizer env call = some (.built b) ∧ b.cls = c ∧ b.space = sp ∧
      (∀ k, b.kwargs.get? k = (explicitKwarg call k).or ((yamlKwargs y).get? k)) ∧
      b.alg = .str c ∧ b.name = .str "baseoptimizer" ∧ b.selection = "user-instantiation" ∧
      b.decisionTree = false ∧ b.args = b.kwargs := by
  obtain ⟨r, kw, h1, h2, h3, h4, h5, h6⟩ := runSettings_yaml hc hw hy
  have hs' : r.get? "searcher" = some (.obj (.optClass c)) := by
    rw [h2 _ (by decide) (by decide), hs]
  have hsp' : r.get? "pipeline_space" = some (.obj (.space d)) := by
    rw [h2 _ (by decide) (by decide), hspace]
  refine ⟨⟨c, sp, .null, kw, .str "baseoptimizer", .str c, "user-instantiation", false, kw⟩, ?_, rfl,
    rfl, h4, rfl, rfl, rfl, rfl, rfl⟩
  unfold runOptimizer
  rw [h5 he]
  simp only [Option.bind_eq_bind, Option.bind_some]
  unfold optimizerOf
  rw [hs', h3, hsp']
  simp only [hm, Option.map_some]

/-- **C136**: a class that is not a class of optimizers is rejected. -/
theorem C136_other_class_rejected {env : Env} {call : Dict Py} {c : String}
    (hc : call.keys.Nodup) (hs : call.get? "searcher" = some (.obj (.otherClass c))) :
    runOptimizer env call = none := by
  unfold runOptimizer
  cases h : runSettings env call with
  | none => rfl
  | some s =>
    obtain ⟨h1, y, h2, h3, kw, h4, h5⟩ := C36_precedence hc h
    have : s.get? "searcher" = some (.obj (.otherClass c)) := by
      rw [h3 _ (by decide) (by decide)]
      unfold effective explicit
      rw [if_neg (by decide), hs]
      rfl
    simp only [Option.bind_eq_bind, Option.bind_some]
    unfold optimizerOf
    rw [this, h4]

/-- **C136** fails for the settings of the run: `max_cost_total`, `loss_value_on_error`,
`cost_value_on_error` and `ignore_errors` reach every searcher of the package (`C38_error_settings`),
but not a class given by the user, whatever they are. -/
theorem C136_class_settings_fails {env : Env} {call y : Dict Py} {c : String} {d : Dict Hp}
    {sp : SearchSpace} (hc : call.keys.Nodup) (hw : "working_directory" ∉ call.keys)
    (hy : YamlSettings env call y) (he : Essential (effective call y))
    (hs : effective call y "searcher" = some (.obj (.optClass c)))
    (hspace : effective call y "pipeline_space" = some (.obj (.space d)))
    (hm : SearchSpace.make d = some sp) (hkw : y.get? "searcher_kwargs" = none) :
    ∃ b, runOptimizer env call = some (.built b) ∧ b.budget = .null ∧
      b.kwargs.get? "loss_value_on_error" = none ∧ b.kwargs.get? "cost_value_on_error" = none ∧
      b.kwargs.get? "ignore_errors" = none := by
  obtain ⟨r, kw, h1, h2, h3, h4, h5, h6⟩ := runSettings_yaml hc hw hy
  have hs' : r.get? "searcher" = some (.obj (.optClass c)) := by
    rw [h2 _ (by decide) (by decide), hs]
  have hsp' : r.get? "pipeline_space" = some (.obj (.space d)) := by
    rw [h2 _ (by decide) (by decide), hspace]
  refine ⟨⟨c, sp, .null, kw, .str "baseoptimizer", .str c, "user-instantiation", false, kw⟩, ?_, rfl,
    ?_, ?_, ?_⟩
  · unfold runOptimizer
    rw [h5 he]
    simp only [Option.bind_eq_bind, Option.bind_some]
    unfold optimizerOf
    rw [hs', h3, hsp']
    simp only [hm, Option.map_some]
  all_goals
    simp only [h4, explicitKwarg, yamlKwargs, hkw]
    rw [if_pos (by decide)]
    rfl

/-- **C136** fails for spaces that are not dictionaries of hyperparameters: a YAML file with the space
is fine for the searchers of the package, but with a class of the user the run raises. -/
theorem C136_class_space_file_fails {env : Env} {call y : Dict Py} {c path : String}
    (hc : call.keys.Nodup) (hw : "working_directory" ∉ call.keys)
    (hy : YamlSettings env call y) (he : Essential (effective call y))
    (hs : effective call y "searcher" = some (.obj (.optClass c)))
    (hspace : effective call y "pipeline_space" = some (.str path) ∨
      effective call y "pipeline_space" = some (.obj (.path path))) :
    runOptimizer env call = none := by
  obtain ⟨r, kw, h1, h2, h3, h4, h5, h6⟩ := runSettings_yaml hc hw hy
  have hs' : r.get? "searcher" = some (.obj (.optClass c)) := by
    rw [h2 _ (by decide) (by decide), hs]
  unfold runOptimizer
  rw [h5 he]
  simp only [Option.bind_eq_bind, Option.bind_some]
  unfold optimizerOf
  rcases hspace with hspace | hspace
  all_goals
    have hsp' := h2 "pipeline_space" (by decide) (by decide)
    rw [hspace] at hsp'
    rw [hs', h3, hsp']

/-! ### Examples -/

/-- A call with an own searcher and an argument for it. -/
def ownCall (searcher space : Py) : Dict Py :=
  [("run_pipeline", .obj (.func "train")), ("pipeline_space", space),
   ("root_directory", .str "results"), ("max_evaluations_total", .int 7),
   ("loss_value_on_error", .int 9), ("searcher", searcher), ("eta", .int 4)]

theorem own_hyps (searcher space : Py) (hsp : space.truthy = true) :
    (ownCall searcher space).keys.Nodup ∧ "working_directory" ∉ (ownCall searcher space).keys ∧
    YamlSettings demoEnv (ownCall searcher space) [] ∧
    Essential (effective (ownCall searcher space) []) ∧
    effective (ownCall searcher space) [] "searcher" = some searcher ∧
    effective (ownCall searcher space) [] "pipeline_space" = some space :=
  ⟨by simp [ownCall, Dict.keys], by simp [ownCall, Dict.keys], .absent (by simp [ownCall, Dict.get?]),
    ⟨⟨_, rfl, rfl⟩, ⟨_, rfl, rfl⟩, .inl ⟨space, rfl, hsp⟩, .inl ⟨_, rfl, rfl⟩⟩, rfl, rfl⟩

example : runOptimizer demoEnv (ownCall (.obj (.optInst "mine"))
    (.obj (.space [("lr", .const ⟨.num 1, .num 1⟩)]))) = some (.instance "mine") := by
  obtain ⟨h1, h2, h3, h4, h5, h6⟩ := own_hyps (.obj (.optInst "mine"))
    (.obj (.space [("lr", .const ⟨.num 1, .num 1⟩)])) rfl
  exact C136_object_used h1 h2 h3 h4 h5

theorem own_space : ∃ s, SearchSpace.make [("lr", Hp.const ⟨.num 1, .num 1⟩)] = some s := by
  unfold SearchSpace.make
  simp only
  rw [if_neg]
  · exact ⟨_, rfl⟩
  · rw [((Dict.sorted_perm _).filter _).length_eq]
    simp [Hp.isFidelity]

/-- The argument of the searcher arrives; the loss for failed evaluations does not. -/
example : ∃ b, runOptimizer demoEnv (ownCall (.obj (.optClass "Mine"))
    (.obj (.space [("lr", .const ⟨.num 1, .num 1⟩)]))) = some (.built b) ∧ b.cls = "Mine" ∧
    b.kwargs.get? "eta" = some (.int 4) ∧ b.kwargs.get? "loss_value_on_error" = none := by
  obtain ⟨h1, h2, h3, h4, h5, h6⟩ := own_hyps (.obj (.optClass "Mine"))
    (.obj (.space [("lr", .const ⟨.num 1, .num 1⟩)])) rfl
  obtain ⟨s, hs⟩ := own_space
  obtain ⟨b, g1, g2, g3, g4, -⟩ := C136_class_called h1 h2 h3 h4 h5 h6 hs
  exact ⟨b, g1, g2, by rw [g4]; rfl, by rw [g4]; rfl⟩

example : runOptimizer demoEnv (ownCall (.obj (.optClass "Mine")) (.str "space.yaml")) = none := by
  obtain ⟨h1, h2, h3, h4, h5, h6⟩ := own_hyps (.obj (.optClass "Mine")) (.str "space.yaml") rfl
  exact C136_class_space_file_fails h1 h2 h3 h4 h5 (.inl h6)

end Verif.Args
