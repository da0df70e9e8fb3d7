import Verif.Args.Searcher
import Verif.Args.SettingsProps

/-!
# The choice of the searcher (C38)
-/

namespace Verif.Args

open Verif.Space (Dict)
open Verif.Space

/-! ## Specification -/

/-- Some parameter of the space was declared with a default. -/
def HasPrior (d : Dict Hp) : Prop := ∃ p ∈ d, p.2.hasPrior = true

/-- Some parameter of the space was declared as fidelity. -/
def HasFidelity (d : Dict Hp) : Prop := ∃ p ∈ d, p.2.isFidelity = true

/-- Name and class of the searcher used when the user does not choose one. -/
inductive DefaultSearcher (d : Dict Hp) : String → String → Prop
  | priorband : HasPrior d → HasFidelity d → DefaultSearcher d "priorband" "PriorBand"
  | pibo : HasPrior d → ¬ HasFidelity d → DefaultSearcher d "pibo" "BayesianOptimization"
  | hyperband : ¬ HasPrior d → HasFidelity d → DefaultSearcher d "hyperband" "Hyperband"
  | bo : ¬ HasPrior d → ¬ HasFidelity d →
      DefaultSearcher d "bayesian_optimization" "BayesianOptimization"

/-- The searchers that come with the package: the class that runs for each name. -/
def packageSearchers : List (String × String) :=
  [("asha", "AsynchronousSuccessiveHalving"),
   ("asha_prior", "AsynchronousSuccessiveHalvingWithPriors"),
   ("bayesian_optimization", "BayesianOptimization"), ("hyperband", "Hyperband"), ("ifbo", "IFBO"),
   ("mobster", "MOBSTER"), ("pibo", "BayesianOptimization"), ("priorband", "PriorBand"),
   ("priorband_bo", "PriorBand"), ("random_search", "RandomSearch"),
   ("successive_halving", "SuccessiveHalving"),
   ("successive_halving_prior", "SuccessiveHalvingWithPriors")]

/-- The settings for crashed evaluations, which every searcher of the package gets from the
run. -/
def errorSetting (a : RunArgs) (k : String) : Option Py :=
  if k = "loss_value_on_error" then some a.lossOnError
  else if k = "cost_value_on_error" then some a.costOnError
  else if k = "ignore_errors" then some a.ignoreErrors
  else none

/-- An argument in a configuration file; the keys that name the strategy and the searcher are not
arguments. -/
def fileArg (file : Dict Py) (k : String) : Option Py :=
  if k = "strategy" ∨ k = "algorithm" ∨ k = "name" then none else file.get? k

/-! ## Lemmas -/

theorem make_perm {d : Dict Hp} {s : SearchSpace} (h : SearchSpace.make d = some s) :
    List.Perm s d := by
  unfold SearchSpace.make at h
  simp only at h
  split_ifs at h
  rw [Option.some.injEq] at h
  rw [← h]
  exact Dict.sorted_perm d

theorem hasPrior_iff {d : Dict Hp} {s : SearchSpace} (h : SearchSpace.make d = some s) :
    s.hasPrior = true ↔ HasPrior d := by
  unfold SearchSpace.hasPrior HasPrior
  rw [List.any_eq_true]
  constructor
  · rintro ⟨p, hp, h'⟩; exact ⟨p, (make_perm h).mem_iff.mp hp, h'⟩
  · rintro ⟨p, hp, h'⟩; exact ⟨p, (make_perm h).mem_iff.mpr hp, h'⟩

theorem hasFidelity_iff {d : Dict Hp} {s : SearchSpace} (h : SearchSpace.make d = some s) :
    s.hasFidelity = true ↔ HasFidelity d := by
  unfold SearchSpace.hasFidelity SearchSpace.fidelity HasFidelity
  rw [List.find?_isSome]
  constructor
  · rintro ⟨p, hp, h'⟩; exact ⟨p, (make_perm h).mem_iff.mp hp, h'⟩
  · rintro ⟨p, hp, h'⟩; exact ⟨p, (make_perm h).mem_iff.mpr hp, h'⟩

theorem defaultSearcher_choice {d : Dict Hp} {s : SearchSpace} (h : SearchSpace.make d = some s)
    {name cls : String} (hd : DefaultSearcher d name cls) : nepsChoice s = name := by
  unfold nepsChoice
  cases hd with
  | priorband h1 h2 => rw [if_pos ((hasPrior_iff h).mpr h1), if_pos ((hasFidelity_iff h).mpr h2)]
  | pibo h1 h2 =>
    rw [if_pos ((hasPrior_iff h).mpr h1), if_neg (fun h' => h2 ((hasFidelity_iff h).mp h'))]
  | hyperband h1 h2 =>
    rw [if_neg (fun h' => h1 ((hasPrior_iff h).mp h')), if_pos ((hasFidelity_iff h).mpr h2)]
  | bo h1 h2 =>
    rw [if_neg (fun h' => h1 ((hasPrior_iff h).mp h')),
      if_neg (fun h' => h2 ((hasFidelity_iff h).mp h'))]

theorem errors_get? (a : RunArgs) (k : String) :
    Dict.get? (List.reverse [("loss_value_on_error", a.lossOnError),
      ("cost_value_on_error", a.costOnError), ("ignore_errors", a.ignoreErrors)]) k =
      errorSetting a k := by
  rw [Dict.get?_reverse (by simp [Dict.keys])]
  simp only [Dict.get?_cons, Dict.get?_nil, errorSetting]
  by_cases h1 : k = "loss_value_on_error"
  · simp [h1]
  · by_cases h2 : k = "cost_value_on_error"
    · simp [h2]
    · by_cases h3 : k = "ignore_errors"
      · simp [h3]
      · simp [h1, h2, h3, Ne.symm h1, Ne.symm h2, Ne.symm h3]

/-- The strategy and the remaining arguments of a configuration. -/
theorem popStrategy_spec {config c : Dict Py} {alg : Py} (h : popStrategy config = some (alg, c)) :
    (∀ k, c.get? k = if k = "strategy" ∨ k = "algorithm" then none else config.get? k) ∧
    some alg = (config.get? "algorithm").or (config.get? "strategy") := by
  unfold popStrategy at h
  cases ha : config.get? "algorithm" with
  | some v =>
    simp only [ha] at h
    rw [Dict.get?_set, if_pos rfl] at h
    simp only [Option.some.injEq, Prod.mk.injEq] at h
    refine ⟨fun k => ?_, by simp [h.1]⟩
    rw [← h.2, Dict.get?_erase]
    by_cases h1 : k = "strategy"
    · simp [h1]
    · rw [if_neg h1, Dict.get?_set, if_neg h1, Dict.get?_erase]
      by_cases h2 : k = "algorithm" <;> simp [h1, h2]
  | none =>
    simp only [ha] at h
    cases hs : config.get? "strategy" with
    | none => rw [hs] at h; cases h
    | some v =>
      rw [hs] at h
      simp only [Option.some.injEq, Prod.mk.injEq] at h
      refine ⟨fun k => ?_, by simp [h.1]⟩
      rw [← h.2, Dict.get?_erase]
      by_cases h1 : k = "strategy"
      · simp [h1]
      · by_cases h2 : k = "algorithm"
        · subst h2; simp [ha]
        · simp [h1, h2]

theorem callArgs_get? (bound final : Dict Py) (k : String) :
    (callArgs bound final).get? k = (final.get? k).or (bound.get? k) := by
  unfold callArgs
  rw [Dict.get?_append, Dict.get?_filterKey (P := fun k => decide (k ∉ final.keys))]
  by_cases h : k ∈ final.keys
  · obtain ⟨v, hv⟩ := Dict.mem_keys_iff.mp h
    simp [hv]
  · simp [h]

/-- What `_run_args` returns, once the searcher is selected. -/
theorem runArgs_spec {env : Env} {a : RunArgs} {b : Built} (hk : a.kwargs.keys.Nodup)
    (h : runArgs env a = some b) :
    ∃ sel bound, select env b.space a.searcher = some sel ∧ spaceArg env a.space = some b.space ∧
      b.decisionTree = sel.decisionTree ∧ b.name = sel.name ∧ b.selection = sel.selection ∧
      some b.alg = (sel.config.get? "algorithm").or (sel.config.get? "strategy") ∧
      instanceFromMap b.alg = some (b.cls, bound) ∧ b.budget = a.maxCost ∧
      ∀ k, b.kwargs.get? k = (errorSetting a k).or
        ((if sel.decisionTree then none else a.kwargs.get? k).or
          ((if k = "strategy" ∨ k = "algorithm" then none else sel.config.get? k).or
            (bound.get? k))) := by
  unfold runArgs at h
  simp only [Option.bind_eq_bind, Option.bind_eq_some_iff] at h
  obtain ⟨space, h1, sel, h2, ⟨alg, config⟩, h3, ⟨cls, bound⟩, h4, h⟩ := h
  simp only at h h4
  split_ifs at h
  obtain ⟨hc, ha⟩ := popStrategy_spec h3
  have h := Option.some.inj h
  subst h
  refine ⟨sel, bound, h2, h1, rfl, rfl, rfl, ha, h4, rfl, fun k => ?_⟩
  simp only
  rw [callArgs_get?, Dict.get?_update, errors_get?, Option.or_assoc]
  congr 1
  rw [← Option.or_assoc]
  congr 1
  unfold applyKwargs
  split_ifs with h5 h6 h6
  · rw [hc, if_pos h6]; rfl
  · rw [hc, if_neg h6]; rfl
  · rw [Dict.get?_update, Dict.get?_reverse hk, hc, if_pos h6]
  · rw [Dict.get?_update, Dict.get?_reverse hk, hc, if_neg h6]

/-! ### The files of the package -/

/-- A check of one file: it names a known class, every argument bound to the class is in the file
too, and nothing in it clashes with the arguments `neps.run` adds. -/
def fileOk (name : String) (f : Dict Py) : Bool :=
  (f.get? "algorithm").isNone && (f.get? "name").isNone && (f.get? "pipeline_space").isNone &&
    (f.get? "budget").isNone &&
  match f.get? "strategy" with
  | some (.str st) =>
    match searcherMapping.get? st with
    | some (c, bound) =>
      decide ((name, c) ∈ packageSearchers) && (bound.keys.all fun k => decide (k ∈ f.keys) && decide (k ≠ "strategy" ∧ k ≠ "algorithm"))
    | none => false
  | _ => false

theorem defaultSearchers_ok : ∀ p ∈ defaultSearchers, fileOk p.1 p.2 = true := by
  decide +kernel

theorem packageSearchers_names : packageSearchers.map (·.1) = searcherNames := by decide +kernel

theorem dropSuffix_names : ∀ s ∈ searcherNames, String.ofList (dropSuffix s.toList) = s := by
  decide +kernel

theorem packageSearchers_unique : (packageSearchers.map (·.1)).Nodup := by decide +kernel

/-- Everything needed about the file of one searcher of the package. -/
theorem file_of_name {s cls : String} (h : (s, cls) ∈ packageSearchers) :
    ∃ file st bound, defaultSearchers.get? s = some file ∧ defaultData s = some file ∧
      file.get? "strategy" = some (.str st) ∧ searcherMapping.get? st = some (cls, bound) ∧
      file.get? "algorithm" = none ∧ file.get? "name" = none ∧
      file.get? "pipeline_space" = none ∧ file.get? "budget" = none ∧
      ∀ k ∈ bound.keys, k ∈ file.keys ∧ k ≠ "strategy" ∧ k ≠ "algorithm" := by
  have hs : s ∈ searcherNames := by
    rw [← packageSearchers_names]
    exact List.mem_map_of_mem h
  obtain ⟨file, hf⟩ := Dict.mem_keys_iff.mp (show s ∈ defaultSearchers.keys from hs)
  have hok := defaultSearchers_ok (s, file) (Dict.mem_of_get? hf)
  unfold fileOk at hok
  simp only [Bool.and_eq_true, Option.isNone_iff_eq_none] at hok
  obtain ⟨⟨⟨⟨h1, h2⟩, h3⟩, h4⟩, h5⟩ := hok
  split at h5
  · rename_i st hst
    split at h5
    · rename_i c bound hb
      rw [Bool.and_eq_true, decide_eq_true_eq, List.all_eq_true] at h5
      have hc : cls = c := by
        have := List.inj_on_of_nodup_map packageSearchers_unique h h5.1 rfl
        exact (Prod.mk.inj this).2
      subst hc
      refine ⟨file, st, bound, hf, ?_, hst, hb, h1, h2, h3, h4, fun k hk => ?_⟩
      · unfold defaultData
        rw [dropSuffix_names s hs, hf]
      · have := h5.2 k hk
        simpa using this
    · cases h5
  · cases h5

theorem popStrategy_file {file : Dict Py} {alg : Py} (h1 : file.get? "strategy" = some alg)
    (h2 : file.get? "algorithm" = none) :
    popStrategy file = some (alg, file.erase "strategy") := by
  unfold popStrategy
  rw [h2]
  simp only
  rw [h1]

theorem applyKwargs_get? {config kw : Dict Py} (hk : kw.keys.Nodup) (t : Bool) (k : String) :
    (applyKwargs config kw t).get? k = (if t then none else kw.get? k).or (config.get? k) := by
  unfold applyKwargs
  cases t
  · simp only [Bool.false_eq_true, ↓reduceIte]
    rw [Dict.get?_update, Dict.get?_reverse hk]
  · simp

/-- A selected file of the package leads to an optimizer unless the user's arguments clash with
those `neps.run` adds. -/
theorem runArgs_file {env : Env} {a : RunArgs} {s cls : String} {space : SearchSpace} {t : Bool}
    (hk : a.kwargs.keys.Nodup) (hsp : spaceArg env a.space = some space)
    (h : (s, cls) ∈ packageSearchers)
    (hsel : ∀ file, defaultData s = some file →
      select env space a.searcher = some ⟨file, .str s, "neps-default", t⟩)
    (hclash : t = true ∨ (a.kwargs.get? "pipeline_space" = none ∧ a.kwargs.get? "budget" = none)) :
    ∃ b file, runArgs env a = some b ∧ defaultSearchers.get? s = some file ∧ b.cls = cls ∧
      b.space = space ∧ b.name = .str s ∧ b.decisionTree = t ∧ b.budget = a.maxCost ∧
      ∀ k, b.kwargs.get? k = (errorSetting a k).or
        ((if t then none else a.kwargs.get? k).or (fileArg file k)) := by
  obtain ⟨file, st, bound, hf, hdata, hst, hb, ha, hn, hps, hbud, hbound⟩ := file_of_name h
  have hsel := hsel file hdata
  have hpop := popStrategy_file hst ha
  have hget : ∀ k, Dict.get? (Dict.update (applyKwargs (file.erase "strategy") a.kwargs t)
      [("loss_value_on_error", a.lossOnError), ("cost_value_on_error", a.costOnError),
       ("ignore_errors", a.ignoreErrors)]) k = (errorSetting a k).or
        ((if t then none else a.kwargs.get? k).or
          (if k = "strategy" then none else file.get? k)) := by
    intro k
    rw [Dict.get?_update, errors_get?, applyKwargs_get? hk, Dict.get?_erase]
  have hno : ∀ k, file.get? k = none → errorSetting a k = none →
      (t = true ∨ a.kwargs.get? k = none) →
      k ∉ Dict.keys (Dict.update (applyKwargs (file.erase "strategy") a.kwargs t)
      [("loss_value_on_error", a.lossOnError), ("cost_value_on_error", a.costOnError),
       ("ignore_errors", a.ignoreErrors)]) := by
    intro k h1 h2 h3
    rw [← Dict.get?_eq_none_iff, hget, h1, h2]
    rcases h3 with h3 | h3
    · simp [h3]
    · simp [h3]
  have hrun : runArgs env a = some ⟨cls, space, a.maxCost, callArgs bound
      (Dict.update (applyKwargs (file.erase "strategy") a.kwargs t)
      [("loss_value_on_error", a.lossOnError), ("cost_value_on_error", a.costOnError),
       ("ignore_errors", a.ignoreErrors)]), .str s, .str st, "neps-default", t,
       applyKwargs (file.erase "strategy") a.kwargs t⟩ := by
    unfold runArgs
    simp only [hsp, Option.bind_eq_bind, Option.bind_some, hsel, hpop, instanceFromMap, hb]
    rw [if_neg]
    · rfl
    · rintro (h' | h')
      · exact hno _ hps rfl (hclash.imp id (·.1)) h'
      · exact hno _ hbud rfl (hclash.imp id (·.2)) h'
  refine ⟨_, file, hrun, hf, rfl, rfl, rfl, rfl, rfl, fun k => ?_⟩
  simp only
  rw [callArgs_get?, hget, Option.or_assoc, Option.or_assoc]
  congr 2
  unfold fileArg
  by_cases hkb : k ∈ bound.keys
  · obtain ⟨h1, h2, h3⟩ := hbound k hkb
    obtain ⟨v, hv⟩ := Dict.mem_keys_iff.mp h1
    have h4 : k ≠ "name" := by rintro rfl; rw [hn] at hv; cases hv
    simp [h2, h3, h4, hv]
  · rw [Dict.get?_none hkb, Option.or_none]
    by_cases h1 : k = "strategy"
    · simp [h1]
    · by_cases h2 : k = "algorithm"
      · subst h2; simp [ha]
      · by_cases h3 : k = "name"
        · subst h3; simp [hn]
        · simp [h1, h2, h3]

/-! ## C38 -/

/-- **C38**: without a searcher the optimizer is decided by whether the space has a parameter with
a default and a fidelity; it gets the arguments in the file of that searcher and the run's settings
for crashed evaluations, whatever other arguments are passed. -/
theorem C38_default {env : Env} {a : RunArgs} {d : Dict Hp} {s : SearchSpace} {name cls : String}
    (hk : a.kwargs.keys.Nodup) (hs : a.searcher = .str "default")
    (hsp : a.space = .obj (.space d)) (hm : SearchSpace.make d = some s)
    (hd : DefaultSearcher d name cls) :
    ∃ b file, runArgs env a = some b ∧ defaultSearchers.get? name = some file ∧ b.cls = cls ∧
      b.space = s ∧ b.name = .str name ∧ b.decisionTree = true ∧ b.budget = a.maxCost ∧
      ∀ k, b.kwargs.get? k = (errorSetting a k).or (fileArg file k) := by
  have hmem : (name, cls) ∈ packageSearchers := by cases hd <;> decide
  obtain ⟨b, file, h1, h2, h3, h4, h5, h6, h7, h8⟩ := runArgs_file (env := env) (a := a) hk
    (space := s) (t := true) (by rw [hsp]; exact hm) hmem
    (fun file hf => by
      rw [hs]
      unfold select
      simp only
      rw [if_neg (by simp), if_pos trivial, defaultSearcher_choice hm hd]
      unfold selectNamed
      rw [hf]
      rfl) (.inl rfl)
  exact ⟨b, file, h1, h2, h3, h4, h5, h6, h7, fun k => by rw [h8]; simp⟩

/-- **C38**: one of the four cases of `C38_default` always applies. -/
theorem C38_default_total (d : Dict Hp) : ∃ name cls, DefaultSearcher d name cls := by
  by_cases h1 : HasPrior d <;> by_cases h2 : HasFidelity d
  · exact ⟨_, _, .priorband h1 h2⟩
  · exact ⟨_, _, .pibo h1 h2⟩
  · exact ⟨_, _, .hyperband h1 h2⟩
  · exact ⟨_, _, .bo h1 h2⟩

/-- **C38**: a searcher of the package chosen by name runs the class of that name; the user's
arguments win over those in the file of the searcher. -/
theorem C38_named {env : Env} {a : RunArgs} {space : SearchSpace} {name cls : String}
    (hk : a.kwargs.keys.Nodup) (h : (name, cls) ∈ packageSearchers) (hs : a.searcher = .str name)
    (hsp : spaceArg env a.space = some space)
    (h1 : a.kwargs.get? "pipeline_space" = none) (h2 : a.kwargs.get? "budget" = none) :
    ∃ b file, runArgs env a = some b ∧ defaultSearchers.get? name = some file ∧ b.cls = cls ∧
      b.space = space ∧ b.name = .str name ∧ b.decisionTree = false ∧ b.budget = a.maxCost ∧
      ∀ k, b.kwargs.get? k =
        (errorSetting a k).or ((a.kwargs.get? k).or (fileArg file k)) := by
  have hmem : name ∈ searcherNames := by
    rw [← packageSearchers_names]
    exact List.mem_map_of_mem h
  have hne : name ≠ "default" := by rintro rfl; revert hmem; decide
  obtain ⟨b, file, h1, h2, h3, h4, h5, h6, h7, h8⟩ := runArgs_file (env := env) (a := a) hk
    (space := space) (t := false) hsp h
    (fun file hf => by
      rw [hs]
      unfold select
      simp only
      rw [if_neg (fun h => h.1 hmem), if_neg hne]
      unfold selectNamed
      rw [hf]
      rfl) (.inr ⟨h1, h2⟩)
  exact ⟨b, file, h1, h2, h3, h4, h5, h6, h7, fun k => by rw [h8]; simp⟩

theorem selectCustom_spec {env : Env} {path : String} {sel : Selected}
    (h : selectCustom env path = some sel) :
    ∃ file, env.yamlFile (yamlPath path) = some (.dict file) ∧ sel.decisionTree = false ∧
      sel.name = (Dict.get? file "name").getD (.str (pathStem path)) ∧
      ∀ k, sel.config.get? k = if k = "name" then none else Dict.get? file k := by
  unfold selectCustom customData at h
  split at h
  · rename_i file hf
    have h := Option.some.inj h
    subst h
    refine ⟨file, hf, rfl, ?_, fun k => ?_⟩
    · simp [Dict.get?_erase]
    · simp only
      rw [Dict.get?_erase, Dict.get?_erase]
      split_ifs <;> rfl
  · cases h

theorem selectDict_spec {d : Dict Py} (hn : d.keys.Nodup) {sel : Selected}
    (h : selectDict d = some sel) :
    ∃ st file, d.get? "strategy" = some (.str st) ∧ defaultData st = some file ∧
      sel.decisionTree = false ∧
      ∀ k, k ≠ "name" → sel.config.get? k = (d.get? k).or (file.get? k) := by
  unfold selectDict at h
  split at h
  · rename_i st hst
    simp only [Option.bind_eq_bind, Option.bind_eq_some_iff] at h
    obtain ⟨file, hf, h⟩ := h
    have hu : ∀ k, Dict.get? (Dict.update file d) k = (d.get? k).or (file.get? k) := by
      intro k
      rw [Dict.get?_update, Dict.get?_reverse hn]
    split at h
    · have h := Option.some.inj h
      subst h
      exact ⟨st, file, hst, hf, rfl, fun k _ => hu k⟩
    · have h := Option.some.inj h
      subst h
      refine ⟨st, file, hst, hf, rfl, fun k hk => ?_⟩
      simp only
      rw [Dict.get?_erase, if_neg hk, hu]
  · cases h

/-- **C38**: a dictionary as searcher: the run's settings for crashed evaluations come first, then
the user's arguments, then the dictionary, then the file of the strategy it names. -/
theorem C38_dict {env : Env} {a : RunArgs} {d : Dict Py} {b : Built} (hk : a.kwargs.keys.Nodup)
    (hn : d.keys.Nodup) (hs : a.searcher = .dict d) (h : runArgs env a = some b) :
    ∃ st file, d.get? "strategy" = some (.str st) ∧ defaultData st = some file ∧
      b.decisionTree = false ∧ b.budget = a.maxCost ∧
      ∀ k v, k ≠ "name" → k ≠ "strategy" → k ≠ "algorithm" →
        (errorSetting a k).or ((a.kwargs.get? k).or ((d.get? k).or (file.get? k))) = some v →
        b.kwargs.get? k = some v := by
  obtain ⟨sel, bound, h1, h2, h3, h4, h5, h6, h7, h8, h9⟩ := runArgs_spec hk h
  rw [hs] at h1
  obtain ⟨st, file, g1, g2, g3, g4⟩ := selectDict_spec hn h1
  refine ⟨st, file, g1, g2, h3.trans g3, h8, fun k v k1 k2 k3 hv => ?_⟩
  rw [h9, g3, if_neg (by simp), if_neg (by simp [k2, k3]), g4 k k1, ← Option.or_assoc,
    ← Option.or_assoc]
  rw [← Option.or_assoc] at hv
  rw [hv]
  rfl

theorem dropSuffix_file {dir stem ext : List Char} (hd : dir = [] ∨ dir.getLast? = some '/')
    (hs : stem ≠ []) (hs' : '/' ∉ stem)
    (he : (ext = [] ∧ '.' ∉ stem) ∨ ∃ e, ext = '.' :: e ∧ e ≠ [] ∧ '.' ∉ e ∧ '/' ∉ e) :
    dropSuffix (dir ++ stem ++ ext) = dir ++ stem := by
  have hall : ∀ {w : List Char} (r : List Char), '.' ∉ w → '/' ∉ w →
      (w.reverse ++ r).takeWhile (fun c => c ≠ '.' && c ≠ '/') =
        w.reverse ++ r.takeWhile (fun c => c ≠ '.' && c ≠ '/') ∧
      (w.reverse ++ r).dropWhile (fun c => c ≠ '.' && c ≠ '/') =
        r.dropWhile (fun c => c ≠ '.' && c ≠ '/') := by
    intro w r h1 h2
    have : ∀ c ∈ w.reverse, (c ≠ '.' && c ≠ '/') = true := by
      intro c hc
      have hc := List.mem_reverse.mp hc
      have a1 : c ≠ '.' := fun h => h1 (h ▸ hc)
      have a2 : c ≠ '/' := fun h => h2 (h ▸ hc)
      simp [a1, a2]
    exact ⟨List.takeWhile_append_of_pos this, List.dropWhile_append_of_pos this⟩
  unfold dropSuffix
  rcases he with ⟨rfl, h⟩ | ⟨e, rfl, h1, h2, h3⟩
  · simp only [List.append_nil, List.reverse_append]
    rw [(hall dir.reverse h hs').2]
    rcases hd with rfl | hd
    · simp
    · obtain ⟨l, rfl⟩ := List.getLast?_eq_some_iff.mp hd
      simp
  · simp only [List.reverse_append, List.reverse_cons, List.append_assoc, List.cons_append,
      List.nil_append]
    have hall' := hall ('.' :: (stem.reverse ++ dir.reverse)) h2 h3
    rw [hall'.1, hall'.2]
    obtain ⟨c, t, ht⟩ : ∃ c t, stem.reverse = c :: t := by
      rcases h : stem.reverse with _ | ⟨c, t⟩
      · exact absurd (List.reverse_eq_nil_iff.mp h) hs
      · exact ⟨c, t, rfl⟩
    have hc : c ≠ '/' := by
      rintro rfl
      exact hs' (List.mem_reverse.mp (ht ▸ List.mem_cons_self ..))
    rw [ht]
    have h5 : ('.' :: (c :: t ++ dir.reverse)).dropWhile (fun c => c ≠ '.' && c ≠ '/') =
        '.' :: c :: (t ++ dir.reverse) := by simp
    rw [h5]
    simp only
    have h6 : (e.reverse ++ ('.' :: (c :: t ++ dir.reverse)).takeWhile
        (fun c => c ≠ '.' && c ≠ '/')).isEmpty = false := by
      rw [List.isEmpty_eq_false_iff]
      simp [h1]
    rw [h6]
    have h7 : (c == '/') = false := by simpa using hc
    rw [h7]
    simp only [Bool.or_self, Bool.false_eq_true, if_false]
    have : stem = t.reverse ++ [c] := by
      rw [← List.reverse_reverse stem, ht, List.reverse_cons]
    rw [this]
    simp

/-- **C38**: the file that a path stands for: `dir/stem`, whether or not an ending is written, is the file
`dir/stem.yaml`, and the name of the searcher is `stem` unless the file gives another one. -/
theorem C38_own_file_name {dir stem ext : List Char} (hd : dir = [] ∨ dir.getLast? = some '/')
    (hs : stem ≠ []) (hs' : '/' ∉ stem)
    (he : (ext = [] ∧ '.' ∉ stem) ∨ ∃ e, ext = '.' :: e ∧ e ≠ [] ∧ '.' ∉ e ∧ '/' ∉ e) :
    yamlPath (String.ofList (dir ++ stem ++ ext)) = String.ofList (dir ++ stem) ++ ".yaml" ∧
      pathStem (String.ofList (dir ++ stem ++ ext)) = String.ofList stem := by
  unfold yamlPath pathStem
  rw [String.toList_ofList, dropSuffix_file hd hs hs' he]
  refine ⟨rfl, ?_⟩
  have : ∀ c ∈ stem.reverse, decide (c ≠ '/') = true := by
    intro c hc
    have a2 : c ≠ '/' := fun h => hs' (h ▸ List.mem_reverse.mp hc)
    simp [a2]
  rw [List.reverse_append, List.takeWhile_append_of_pos this]
  rcases hd with rfl | hd
  · simp
  · obtain ⟨l, rfl⟩ := List.getLast?_eq_some_iff.mp hd
    simp

example : yamlPath "my.searchers/asha_v1.2.yml" = "my.searchers/asha_v1.2.yaml" ∧
    pathStem "my.searchers/asha_v1.2.yml" = "asha_v1.2" := by
  have := C38_own_file_name (dir := "my.searchers/".toList) (stem := "asha_v1.2".toList)
    (ext := ".yml".toList) (.inr rfl) (by decide) (by decide)
    (.inr ⟨"yml".toList, rfl, by decide, by decide, by decide⟩)
  exact this

/-- **C38**: a path as searcher: the same with the user's own YAML file in place of the dictionary
and without a file of the package. -/
theorem C38_own_file {env : Env} {a : RunArgs} {path : String} {b : Built}
    (hk : a.kwargs.keys.Nodup) (hp : path ∉ searcherNames) (hdef : path ≠ "default")
    (hs : a.searcher = .str path ∨ a.searcher = .obj (.path path))
    (h : runArgs env a = some b) :
    ∃ file, env.yamlFile (yamlPath path) = some (.dict file) ∧
      b.decisionTree = false ∧ b.budget = a.maxCost ∧
      b.name = (Dict.get? file "name").getD (.str (pathStem path)) ∧
      ∀ k v, (errorSetting a k).or ((a.kwargs.get? k).or (fileArg file k)) = some v →
        b.kwargs.get? k = some v := by
  obtain ⟨sel, bound, h1, h2, h3, h4, h5, h6, h7, h8, h9⟩ := runArgs_spec hk h
  have h1' : selectCustom env path = some sel := by
    rcases hs with hs | hs
    · rw [hs] at h1
      unfold select at h1
      simp only at h1
      rwa [if_pos ⟨hp, hdef⟩] at h1
    · rw [hs] at h1
      exact h1
  obtain ⟨file, g1, g2, g3, g4⟩ := selectCustom_spec h1'
  refine ⟨file, g1, h3.trans g2, h8, h4.trans g3, fun k v hv => ?_⟩
  rw [h9, g2, if_neg (by simp), g4]
  have : (if k = "strategy" ∨ k = "algorithm" then none
      else if k = "name" then none else Dict.get? file k) = fileArg file k := by
    unfold fileArg
    split_ifs <;> simp_all
  rw [this, ← Option.or_assoc, ← Option.or_assoc]
  rw [← Option.or_assoc] at hv
  rw [hv]
  rfl

/-- **C38**: the user's arguments for the searcher are applied exactly when the user chose it. -/
theorem C38_kwargs {env : Env} {a : RunArgs} {b : Built} (hk : a.kwargs.keys.Nodup)
    (h : runArgs env a = some b) :
    (b.decisionTree = true ↔ a.searcher = .str "default" ∨ a.searcher = .null) ∧
    (b.decisionTree = false → ∀ k v, a.kwargs.get? k = some v → errorSetting a k = none →
      b.kwargs.get? k = some v) ∧
    (b.decisionTree = true → ∀ kw, runArgs env { a with kwargs := kw } = some b) := by
  obtain ⟨sel, bound, h1, h2, h3, h4, h5, h6, h7, h8, h9⟩ := runArgs_spec hk h
  have htree : sel.decisionTree = true ↔ a.searcher = .str "default" ∨ a.searcher = .null := by
    unfold select at h1
    split at h1
    · rename_i p hs
      obtain ⟨_, _, g, _⟩ := selectCustom_spec h1
      simp [g, hs]
    · rename_i d hs
      have : sel.decisionTree = false := by
        unfold selectDict at h1
        split at h1
        · simp only [Option.bind_eq_bind, Option.bind_eq_some_iff] at h1
          obtain ⟨file, hf, h1⟩ := h1
          split at h1 <;> · have h1 := Option.some.inj h1; subst h1; rfl
        · cases h1
      simp [this, hs]
    · rename_i hs
      unfold selectNamed at h1
      simp only [Option.bind_eq_bind, Option.bind_eq_some_iff] at h1
      obtain ⟨file, hf, h1⟩ := h1
      have h1 := Option.some.inj h1
      subst h1
      simp [hs]
    · rename_i s hs
      split_ifs at h1 with c1 c2
      · obtain ⟨_, _, g, _⟩ := selectCustom_spec h1
        simp [g, hs, c1.2]
      · unfold selectNamed at h1
        simp only [Option.bind_eq_bind, Option.bind_eq_some_iff] at h1
        obtain ⟨file, hf, h1⟩ := h1
        have h1 := Option.some.inj h1
        subst h1
        simp [hs, c2]
      · unfold selectNamed at h1
        simp only [Option.bind_eq_bind, Option.bind_eq_some_iff] at h1
        obtain ⟨file, hf, h1⟩ := h1
        have h1 := Option.some.inj h1
        subst h1
        simp [hs, c2]
    · cases h1
  refine ⟨by rw [h3]; exact htree, fun ht k v hv he => ?_, fun ht kw => ?_⟩
  · rw [h9, he, ← h3, ht]
    simp [hv]
  · rw [← h]
    rw [h3] at ht
    unfold runArgs
    simp only [h2, Option.bind_eq_bind, Option.bind_some, h1, ht, applyKwargs, ↓reduceIte]

/-- **C38**: every optimizer built by `_run_args` gets the run's settings for crashed
evaluations, even if the searcher's configuration or the user's arguments say otherwise. -/
theorem C38_error_settings {env : Env} {a : RunArgs} {b : Built} (hk : a.kwargs.keys.Nodup)
    (h : runArgs env a = some b) :
    b.kwargs.get? "loss_value_on_error" = some a.lossOnError ∧
    b.kwargs.get? "cost_value_on_error" = some a.costOnError ∧
    b.kwargs.get? "ignore_errors" = some a.ignoreErrors := by
  obtain ⟨sel, bound, h1, h2, h3, h4, h5, h6, h7, h8, h9⟩ := runArgs_spec hk h
  refine ⟨by rw [h9]; rfl, by rw [h9]; rfl, by rw [h9]; rfl⟩

/-! ### In a call of `neps.run` -/

/-- **C38**: a call of `neps.run` that names no searcher, neither explicitly nor in its YAML file,
uses the searcher decided by the space, with the arguments of its file. -/
theorem C38_run_default {env : Env} {call y : Dict Py} {d : Dict Hp} {sp : SearchSpace}
    {name cls : String} (hc : call.keys.Nodup) (hw : "working_directory" ∉ call.keys)
    (hy : YamlSettings env call y) (he : Essential (effective call y))
    (hs : call.get? "searcher" = none) (hs' : y.get? "searcher" = none)
    (hkw : ∀ k ∈ runArgsNames, explicitKwarg call k = none ∧ (yamlKwargs y).get? k = none)
    (hspace : effective call y "pipeline_space" = some (.obj (.space d)))
    (hm : SearchSpace.make d = some sp) (hd : DefaultSearcher d name cls) :
    ∃ b file, runOptimizer env call = some (.built b) ∧ defaultSearchers.get? name = some file ∧
      b.cls = cls ∧ b.space = sp ∧ some b.budget = effective call y "max_cost_total" ∧
      ∀ k, k ∉ ["loss_value_on_error", "cost_value_on_error", "ignore_errors"] →
        b.kwargs.get? k = fileArg file k := by
  obtain ⟨r, kw, h1, h2, h3, h4, h5, h6⟩ := runSettings_yaml hc hw hy
  have hrun := h5 he
  have hsr : r.get? "searcher" = some (.str "default") := by
    rw [h2 _ (by decide) (by decide)]
    unfold effective explicit
    rw [if_neg (by decide), hs, hs']
    rfl
  have hsp : r.get? "pipeline_space" = some (.obj (.space d)) := by
    rw [h2 _ (by decide) (by decide), hspace]
  have hcost : ∃ c, r.get? "max_cost_total" = some c ∧
      effective call y "max_cost_total" = some c := by
    rw [h2 _ (by decide) (by decide)]
    unfold effective
    cases explicit call "max_cost_total" with
    | some v => exact ⟨v, by simp, by simp⟩
    | none =>
      cases y.get? "max_cost_total" with
      | some v => exact ⟨v, by simp, by simp⟩
      | none => exact ⟨.null, by simp; rfl, by simp; rfl⟩
  obtain ⟨c, hc1, hc2⟩ := hcost
  have hany : ((Dict.keys kw).any fun k => decide (k ∈ runArgsNames)) = false := by
    rw [List.any_eq_false]
    intro k hk
    simp only [decide_eq_true_eq]
    intro hmem
    obtain ⟨v, hv⟩ := Dict.mem_keys_iff.mp hk
    rw [h4, (hkw k hmem).1, (hkw k hmem).2] at hv
    cases hv
  have hstep : ∀ a : RunArgs, a.searcher = .str "default" → a.space = .obj (.space d) →
      ∃ b file, runArgs env a = some b ∧ defaultSearchers.get? name = some file ∧ b.cls = cls ∧
      b.space = sp ∧ b.name = .str name ∧ b.decisionTree = true ∧ b.budget = a.maxCost ∧
      ∀ k, b.kwargs.get? k = (errorSetting a k).or (fileArg file k) := by
    intro a ha hb
    -- the arguments passed by the user play no role, so they may be taken to be none
    obtain ⟨b, file, g1, g2, g3, g4, g5, g6, g7, g8⟩ := C38_default (env := env)
      (a := { a with kwargs := [] }) (by simp [Dict.keys]) ha hb hm hd
    have := (C38_kwargs (a := { a with kwargs := [] }) (by simp [Dict.keys]) g1).2.2 g6 a.kwargs
    exact ⟨b, file, this, g2, g3, g4, g5, g6, g7, g8⟩
  obtain ⟨b, file, g1, g2, g3, g4, g5, g6, g7, g8⟩ := hstep
    ⟨(r.get? "pipeline_space").getD .null, (r.get? "max_cost_total").getD .null,
      (r.get? "ignore_errors").getD .null, (r.get? "loss_value_on_error").getD .null,
      (r.get? "cost_value_on_error").getD .null, .str "default", kw⟩ rfl (by simp [hsp])
  refine ⟨b, file, ?_, g2, g3, g4, ?_, fun k hk => ?_⟩
  · unfold runOptimizer
    rw [hrun]
    simp only [Option.bind_eq_bind, Option.bind_some]
    unfold optimizerOf
    rw [hsr, h3]
    simp only [hany, Bool.false_eq_true, ↓reduceIte, g1]
  · rw [g7, hc2, hc1]; rfl
  · rw [g8]
    simp only [List.mem_cons, List.not_mem_nil, or_false, not_or] at hk
    unfold errorSetting
    rw [if_neg hk.1, if_neg hk.2.1, if_neg hk.2.2]
    rfl

/-- The searchers of the package that have no file. -/
def unreachableSearchers : List String :=
  ["grid_search", "hyperband_custom_default", "priorband_asha", "priorband_asha_hyperband"]

theorem dropSuffix_unreachable : ∀ s ∈ unreachableSearchers,
    String.ofList (dropSuffix s.toList) = s ∧ s ∉ searcherNames ∧ s ≠ "default" := by
  decide +kernel

/-- **C38** does not extend to every searcher of the package: grid search and three others are
registered but cannot be selected, neither by name (unless the user has a file of that name) nor as
the strategy of a dictionary. -/
theorem C38_grid_search_fails {env : Env} {a : RunArgs} {name : String}
    (h : name ∈ unreachableSearchers) :
    name ∈ searcherMapping.keys ∧
    (a.searcher = .str name → env.yamlFile (yamlPath name) = none → runArgs env a = none) ∧
    (∀ d : Dict Py, a.searcher = .dict d → d.get? "strategy" = some (.str name) →
      runArgs env a = none) := by
  obtain ⟨h1, h2, h3⟩ := dropSuffix_unreachable name h
  refine ⟨?_, fun hs hf => ?_, fun d hs hd => ?_⟩
  · revert name; decide +kernel
  · unfold runArgs
    cases spaceArg env a.space with
    | none => rfl
    | some space =>
      have : select env space a.searcher = none := by
        rw [hs]
        unfold select
        simp only
        rw [if_pos ⟨h2, h3⟩]
        unfold selectCustom customData
        rw [hf]
        rfl
      simp [this]
  · unfold runArgs
    cases spaceArg env a.space with
    | none => rfl
    | some space =>
      have : select env space a.searcher = none := by
        rw [hs]
        unfold select selectDict
        simp only [hd]
        have : defaultData name = none := by
          unfold defaultData
          rw [h1]
          exact Dict.get?_none h2
        rw [this]
        rfl
      simp [this]

/-- **C38** fails for the documented way of not choosing a searcher by passing `None`: the call
raises after the searcher was built. -/
theorem C38_none_fails {env : Env} {call : Dict Py} (hc : call.keys.Nodup)
    (hs : call.get? "searcher" = some .null) : runOptimizer env call = none := by
  unfold runOptimizer
  cases h : runSettings env call with
  | none => rfl
  | some s =>
    obtain ⟨h1, y, h2, h3, kw, h4, h5⟩ := C36_precedence hc h
    have : s.get? "searcher" = some .null := by
      rw [h3 _ (by decide) (by decide)]
      unfold effective explicit
      rw [if_neg (by decide), hs]
      rfl
    simp only [Option.bind_eq_bind, Option.bind_some]
    unfold optimizerOf
    rw [this, h4]
    simp only
    split_ifs
    · rfl
    · split <;> rfl

/-! ### Examples -/

/-- A space with a default and a fidelity. -/
noncomputable example : ∃ b, runArgs demoEnv ⟨.obj (.space
    [("lr", .float ⟨0, 1, false, false, some 1, true, 1, 1, none, none⟩),
     ("epochs", .float ⟨1, 9, false, true, none, false, 1, 1, none, none⟩)]), .null, .bool false,
     .null, .null, .str "default", [("eta", .int 5)]⟩ = some b ∧ b.cls = "PriorBand" ∧
     b.kwargs.get? "eta" = some (.int 3) := by
  have hm : ∃ s, SearchSpace.make
    [("lr", Hp.float ⟨0, 1, false, false, some 1, true, 1, 1, none, none⟩),
     ("epochs", Hp.float ⟨1, 9, false, true, none, false, 1, 1, none, none⟩)] = some s := by
    unfold SearchSpace.make
    simp only
    rw [if_neg]
    · exact ⟨_, rfl⟩
    · rw [((Dict.sorted_perm _).filter _).length_eq]
      simp [Hp.isFidelity]
  obtain ⟨s, hm⟩ := hm
  obtain ⟨b, file, h1, h2, h3, h4, h5, h6, h7, h8⟩ := C38_default (env := demoEnv) (a := ⟨.obj (.space
    [("lr", .float ⟨0, 1, false, false, some 1, true, 1, 1, none, none⟩),
     ("epochs", .float ⟨1, 9, false, true, none, false, 1, 1, none, none⟩)]), .null, .bool false,
     .null, .null, .str "default", [("eta", .int 5)]⟩) (by simp [Dict.keys]) rfl rfl hm
    (.priorband ⟨_, List.mem_cons_self .., rfl⟩
      ⟨_, List.mem_cons_of_mem _ (List.mem_cons_self ..), rfl⟩)
  refine ⟨b, h1, h3, ?_⟩
  rw [h8]
  have hf : file = _ := (Option.some.inj h2).symm
  rw [hf]
  rfl

/-- The same with Hyperband chosen by name: the argument is applied. -/
example : ∃ b, runArgs demoEnv ⟨.obj (.space [("lr", .const ⟨.num 1, .num 1⟩)]), .null,
    .bool false, .null, .null, .str "hyperband", [("eta", .int 5)]⟩ = some b ∧
    b.cls = "Hyperband" ∧ b.kwargs.get? "eta" = some (.int 5) ∧
    b.kwargs.get? "initial_design_type" = some (.str "max_budget") := by
  have hm : ∃ s, spaceArg demoEnv (.obj (.space [("lr", .const ⟨.num 1, .num 1⟩)])) = some s := by
    unfold spaceArg SearchSpace.make
    simp only
    rw [if_neg]
    · exact ⟨_, rfl⟩
    · rw [((Dict.sorted_perm _).filter _).length_eq]
      simp [Hp.isFidelity]
  obtain ⟨s, hm⟩ := hm
  obtain ⟨b, file, h1, h2, h3, h4, h5, h6, h7, h8⟩ := C38_named (env := demoEnv)
    (a := ⟨.obj (.space [("lr", .const ⟨.num 1, .num 1⟩)]), .null, .bool false, .null, .null,
      .str "hyperband", [("eta", .int 5)]⟩) (name := "hyperband") (cls := "Hyperband")
    (by simp [Dict.keys]) (by decide) rfl hm rfl rfl
  refine ⟨b, h1, h3, by rw [h8]; rfl, ?_⟩
  rw [h8]
  have hf : file = _ := (Option.some.inj h2).symm
  rw [hf]
  rfl

end Verif.Args
