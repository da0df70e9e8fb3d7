import Verif.Args.SettingsLemmas

/-!
# Precedence of the run arguments (C36) and validation of the YAML file (C66)
-/

namespace Verif.Args

open Verif.Space (Dict)
open Verif.Space

/-! ## Specification -/

/-- `y` are the settings the call takes from a YAML file: none without `run_args`, otherwise the
ones read from the file. -/
inductive YamlSettings (env : Env) (call : Dict Py) : Dict Py → Prop
  | absent : call.get? "run_args" = none ∨ call.get? "run_args" = some .null →
      YamlSettings env call []
  | file {path doc y} :
      call.get? "run_args" = some (.str path) ∨ call.get? "run_args" = some (.obj (.path path)) →
      env.yamlFile path = some doc → runArgsOf env doc = some y → YamlSettings env call y

/-- The value passed explicitly for a named argument; the deprecated `budget` stands for
`max_cost_total`. -/
def explicit (call : Dict Py) (name : String) : Option Py :=
  if name = "max_cost_total" then (call.get? "budget").or (call.get? name) else call.get? name

/-- Explicit argument, else the YAML value, else the default of the signature. -/
def effective (call y : Dict Py) (name : String) : Option Py :=
  (explicit call name).or ((y.get? name).or (signature.get? name))

/-- The keyword arguments for the searcher in the YAML settings. -/
def yamlKwargs (y : Dict Py) : Dict Py :=
  match y.get? "searcher_kwargs" with
  | some (.dict kw) => kw
  | _ => []

/-- The value passed explicitly as a keyword argument for the searcher: every keyword that is not
an argument of `neps.run` itself. -/
def explicitKwarg (call : Dict Py) (name : String) : Option Py :=
  if name ∈ signature.keys ∨ name = "budget" then none else call.get? name

/-- The arguments a run cannot do without are there: the function, the directory, the space (unless
an optimizer object is given) and a limit. -/
def Essential (v : String → Option Py) : Prop :=
  (∃ f, v "run_pipeline" = some f ∧ f.truthy = true) ∧
  (∃ r, v "root_directory" = some r ∧ r.truthy = true) ∧
  ((∃ s, v "pipeline_space" = some s ∧ s.truthy = true) ∨
    ∃ id, v "searcher" = some (.obj (.optInst id))) ∧
  ((∃ n, v "max_evaluations_total" = some n ∧ n.truthy = true) ∨
    ∃ c, v "max_cost_total" = some c ∧ c.truthy = true)

/-! ## Lemmas -/

theorem localArg_eq (call : Dict Py) (k : String) (v : Py) :
    localArg call k v = match explicit call k with
      | some w => .given w
      | none => .dflt v := by
  unfold localArg explicit
  by_cases h : k = "max_cost_total"
  · subst h
    simp only [↓reduceIte]
    cases Dict.get? call "budget" with
    | some w => simp
    | none => simp only [Option.none_or]; cases call.get? "max_cost_total" <;> rfl
  · simp only [h, ↓reduceIte]
    cases call.get? k <;> rfl

theorem essentialOk_iff {v : String → Option Py} :
    essentialOk ((v "run_pipeline").getD .null) ((v "root_directory").getD .null)
      ((v "pipeline_space").getD .null) ((v "max_cost_total").getD .null)
      ((v "max_evaluations_total").getD .null) ((v "searcher").getD .null) = true ↔
      Essential v := by
  have key : ∀ o : Option Py, (o.getD .null).truthy = true ↔ ∃ x, o = some x ∧ x.truthy = true := by
    intro o
    cases o <;> simp [Py.truthy]
  have key2 : ∀ o : Option Py, (o.getD .null).isOptimizer = true ↔
      ∃ id, o = some (.obj (.optInst id)) := by
    intro o
    cases o with
    | none => simp [Py.isOptimizer]
    | some x =>
      simp only [Option.getD_some, Option.some.injEq]
      unfold Py.isOptimizer
      split
      · simp
      · rename_i h; simpa using h
  unfold essentialOk Essential
  rw [← key, ← key, ← key, ← key, ← key, ← key2]
  generalize ((v "run_pipeline").getD .null).truthy = a
  generalize ((v "root_directory").getD .null).truthy = b
  generalize ((v "pipeline_space").getD .null).truthy = c
  generalize ((v "searcher").getD .null).isOptimizer = d
  generalize ((v "max_evaluations_total").getD .null).truthy = e
  generalize ((v "max_cost_total").getD .null).truthy = f
  cases a <;> cases b <;> cases c <;> cases d <;> cases e <;> cases f <;> decide

theorem attributes_iff (k : String) : k ∈ attributes ↔
    k ≠ "run_args" ∧ (k ∈ signature.keys ∨ k = "searcher_kwargs") := by
  simp only [attributes, signature, Dict.keys, List.map_cons, List.map_nil, List.mem_cons,
    List.not_mem_nil, or_false]
  constructor
  · rintro (h | h | h | h | h | h | h | h | h | h | h | h | h | h | h | h | h) <;> subst h <;> simp
  · tauto

theorem essential_congr {v w : String → Option Py} (h : ∀ a ∈ attributes, v a = w a) :
    Essential v ↔ Essential w := by
  unfold Essential
  rw [h _ (by decide), h _ (by decide), h _ (by decide), h _ (by decide), h _ (by decide),
    h _ (by decide)]

/-- The settings computed from a merged dictionary. -/
theorem finish {d call y : Dict Py} (hn : d.keys.Nodup)
    (hk : ∀ k, k ∈ d.keys ↔ k ∈ signature.keys ∨ k = "searcher_kwargs")
    (hv : ∀ k ∈ signature.keys, d.get? k = effective call y k) :
    ∃ r : Dict Py, r.keys = attributes ∧
      (∀ a ∈ attributes, a ≠ "searcher_kwargs" → r.get? a = effective call y a) ∧
      r.get? "searcher_kwargs" = d.get? "searcher_kwargs" ∧
      ((Essential (effective call y) → (assign (d.erase "run_args")).bind check = some r) ∧
       (¬ Essential (effective call y) → (assign (d.erase "run_args")).bind check = none)) := by
  obtain ⟨r, h1, h2, h3⟩ := assign_check (d := d.erase "run_args")
    (fun k => by rw [Dict.mem_keys_erase, hk, attributes_iff]) (Dict.nodup_erase hn _)
  have h2' : ∀ a ∈ attributes, r.get? a = d.get? a := by
    intro a ha
    rw [h2 a ha, Dict.get?_erase, if_neg ((attributes_iff a).mp ha).1]
  have h4 : ∀ a ∈ attributes, a ≠ "searcher_kwargs" → r.get? a = effective call y a := by
    intro a ha hne
    rw [h2' a ha]
    exact hv a ((((attributes_iff a).mp ha).2).resolve_right hne)
  have hess : Essential r.get? ↔ Essential (effective call y) := by
    unfold Essential
    rw [h4 _ (by decide) (by decide), h4 _ (by decide) (by decide), h4 _ (by decide) (by decide),
      h4 _ (by decide) (by decide), h4 _ (by decide) (by decide), h4 _ (by decide) (by decide)]
  refine ⟨r, h1, h4, h2' _ (by decide), fun he => ?_, fun he => ?_⟩
  · rw [h3, if_pos (essentialOk_iff.mpr (hess.mpr he))]
  · rw [h3, if_neg fun h => he (hess.mp (essentialOk_iff.mp h))]

theorem signature_get? {k : String} (h : k ∈ signature.keys) : ∃ v, signature.get? k = some v :=
  Dict.mem_keys_iff.mp h

theorem extra_get? (call : Dict Py) (k : String) :
    ((extraKwargs call).erase "budget").get? k = explicitKwarg call k := by
  rw [Dict.get?_erase]
  unfold extraKwargs explicitKwarg
  rw [Dict.get?_filterKey (P := fun k => decide (k ∉ signature.keys))]
  by_cases h : k = "budget"
  · simp [h]
  · by_cases h' : k ∈ signature.keys <;> simp [h, h']

theorem extra_nodup {call : Dict Py} (hc : call.keys.Nodup) :
    ((extraKwargs call).erase "budget").keys.Nodup := by
  apply Dict.nodup_erase
  exact hc.sublist (List.Sublist.map _ List.filter_sublist)

/-- What the call computes, given the settings of the YAML file. -/
theorem runSettings_yaml {env : Env} {call y : Dict Py} (hc : call.keys.Nodup)
    (hw : "working_directory" ∉ call.keys) (hy : YamlSettings env call y) :
    ∃ (r kw : Dict Py), r.keys = attributes ∧
      (∀ a ∈ attributes, a ≠ "searcher_kwargs" → r.get? a = effective call y a) ∧
      r.get? "searcher_kwargs" = some (.dict kw) ∧
      (∀ k, Dict.get? kw k = (explicitKwarg call k).or ((yamlKwargs y).get? k)) ∧
      ((Essential (effective call y) → runSettings env call = some r) ∧
       (¬ Essential (effective call y) → runSettings env call = none)) := by
  have hw' : "working_directory" ∉ (extraKwargs call).keys := by
    intro h
    obtain ⟨p, hp, he⟩ := List.mem_map.mp h
    exact hw (by rw [← he]; exact List.mem_map_of_mem (List.mem_of_mem_filter hp))
  have hloc : runLocals call = some (namedLocals call ++
      [("searcher_kwargs", .given (.dict ((extraKwargs call).erase "budget")))]) := by
    unfold runLocals
    rw [if_neg hw']
    rfl
  cases hy with
  | absent hra =>
    set d := unwrap (namedLocals call ++
      [("searcher_kwargs", .given (.dict ((extraKwargs call).erase "budget")))]) with hd
    have hkeys : d.keys = signature.keys ++ ["searcher_kwargs"] := by
      rw [hd, unwrap_keys]
      rw [← namedLocals_keys call]
      simp only [Dict.keys, List.map_append, List.map_cons, List.map_nil]
    obtain ⟨r, h1, h2, h3, h4⟩ := finish (d := d) (call := call) (y := [])
      (by rw [hkeys]; decide) (fun k => by rw [hkeys]; simp) (fun k hk => by
        rw [hd, unwrap_get?, Dict.get?_append, namedLocals_get?]
        obtain ⟨v, hv⟩ := signature_get? hk
        rw [hv, Option.map_some, Option.some_or, Option.map_some, localArg_eq]
        unfold effective
        cases explicit call k <;> simp [Dict.get?_nil, hv, Arg.value])
    refine ⟨r, (extraKwargs call).erase "budget", h1, h2, ?_, fun k => ?_, ?_⟩
    · rw [h3, hd, unwrap_get?, Dict.get?_append,
        Dict.get?_none (by rw [namedLocals_keys]; exact not_kwargs_mem)]
      rfl
    · rw [extra_get?]
      simp [yamlKwargs, Dict.get?_nil]
    · have : runSettings env call = (assign (d.erase "run_args")).bind check := by
        unfold runSettings settingsOf mergedOf
        rw [hloc]
        rcases hra with h | h <;> simp [h, hd]
      rw [this]
      exact h4
  | @file path doc _ hra hfile hdoc =>
    have hg := runArgsOf_good hdoc
    have hkw : (y.get? "searcher_kwargs").getD (.dict []) = .dict (yamlKwargs y) := by
      unfold yamlKwargs
      cases h : y.get? "searcher_kwargs" with
      | none => rfl
      | some v => obtain ⟨kw, rfl⟩ := hg.kwargs v h; rfl
    obtain ⟨d, hm, hn, hk, hv, hs⟩ := merge_eq (call := call) hg.nodup hkw
    obtain ⟨r, h1, h2, h3, h4⟩ := finish (d := d) (call := call) (y := y) hn
      (fun k => by
        rw [hk]
        constructor
        · rintro (h | h)
          · exact ((attributes_iff k).mp (hg.names k h)).2
          · exact h
        · exact .inr)
      (fun k hks => by
        rw [hv k (fun h => not_kwargs_mem (h ▸ hks)), namedLocals_get?]
        obtain ⟨v, hv'⟩ := signature_get? hks
        rw [hv', Option.map_some, localArg_eq]
        unfold effective
        cases explicit call k <;> simp [hv'])
    refine ⟨r, Dict.update (yamlKwargs y) ((extraKwargs call).erase "budget"), h1, h2,
      by rw [h3, hs], fun k => ?_, ?_⟩
    · rw [Dict.get?_update, Dict.get?_reverse (extra_nodup hc), extra_get?]
    · have : runSettings env call = (assign (d.erase "run_args")).bind check := by
        unfold runSettings settingsOf mergedOf
        rw [hloc]
        rcases hra with h | h <;> simp [h, hfile, hdoc, hm]
      rw [this]
      exact h4

theorem yaml_of_run {env : Env} {call s : Dict Py} (h : runSettings env call = some s) :
    "working_directory" ∉ call.keys ∧ ∃ y, YamlSettings env call y := by
  unfold runSettings at h
  simp only [Option.bind_eq_bind, Option.bind_eq_some_iff] at h
  obtain ⟨func, hf, h⟩ := h
  constructor
  · unfold runLocals at hf
    split_ifs at hf with hw
    intro hc
    apply hw
    obtain ⟨v, hv⟩ := Dict.mem_keys_iff.mp hc
    refine Dict.mem_keys_iff.mpr ⟨v, ?_⟩
    unfold extraKwargs
    rw [Dict.get?_filterKey (P := fun k => decide (k ∉ signature.keys)), if_pos (by decide), hv]
  · unfold settingsOf at h
    simp only [Option.bind_eq_bind, Option.bind_eq_some_iff] at h
    obtain ⟨d, hd, -⟩ := h
    unfold mergedOf at hd
    split at hd
    · rename_i heq
      refine ⟨[], .absent ?_⟩
      cases hg : call.get? "run_args" with
      | none => exact .inl rfl
      | some v => rw [hg] at heq; simp only [Option.getD_some] at heq; exact .inr (by rw [heq])
    · rename_i path heq
      simp only [Option.bind_eq_bind, Option.bind_eq_some_iff] at hd
      obtain ⟨doc, h1, y, h2, -⟩ := hd
      refine ⟨y, .file (.inl ?_) h1 h2⟩
      cases hg : call.get? "run_args" with
      | none => rw [hg] at heq; simp at heq
      | some v => rw [hg] at heq; simp only [Option.getD_some] at heq; rw [heq]
    · rename_i path heq
      simp only [Option.bind_eq_bind, Option.bind_eq_some_iff] at hd
      obtain ⟨doc, h1, y, h2, -⟩ := hd
      refine ⟨y, .file (.inr ?_) h1 h2⟩
      cases hg : call.get? "run_args" with
      | none => rw [hg] at heq; simp at heq
      | some v => rw [hg] at heq; simp only [Option.getD_some] at heq; rw [heq]
    · cases hd

/-! ## C36 -/

/-- **C36**: in every call of `neps.run` that gets as far as its settings, each setting is assigned
exactly once; a value passed explicitly wins over the YAML value, which wins over the default; the
keyword arguments for the searcher are merged key by key, explicit ones winning. -/
theorem C36_precedence {env : Env} {call s : Dict Py} (hc : call.keys.Nodup)
    (h : runSettings env call = some s) :
    s.keys = attributes ∧
    ∃ y, YamlSettings env call y ∧
      (∀ name ∈ attributes, name ≠ "searcher_kwargs" → s.get? name = effective call y name) ∧
      ∃ kw, s.get? "searcher_kwargs" = some (.dict kw) ∧
        ∀ k, Dict.get? kw k = (explicitKwarg call k).or ((yamlKwargs y).get? k) := by
  obtain ⟨hw, y, hy⟩ := yaml_of_run h
  obtain ⟨r, kw, h1, h2, h3, h4, h5, h6⟩ := runSettings_yaml hc hw hy
  have hr : r = s := by
    by_cases he : Essential (effective call y)
    · rw [h5 he, Option.some.injEq] at h; exact h
    · rw [h6 he] at h; cases h
  subst hr
  exact ⟨h1, y, hy, h2, kw, h3, h4⟩

/-- **C36**: the settings are complete or the call raises: a call gets its settings exactly when it
does not use the removed `working_directory`, its YAML file (if any) can be read, and the function,
the directory, the space and a limit are given explicitly or in the file. -/
theorem C36_complete {env : Env} {call : Dict Py} (hc : call.keys.Nodup) :
    (∃ s, runSettings env call = some s) ↔
      "working_directory" ∉ call.keys ∧
      ∃ y, YamlSettings env call y ∧ Essential (effective call y) := by
  constructor
  · rintro ⟨s, h⟩
    obtain ⟨hw, y, hy⟩ := yaml_of_run h
    refine ⟨hw, y, hy, ?_⟩
    obtain ⟨r, kw, h1, h2, h3, h4, h5, h6⟩ := runSettings_yaml hc hw hy
    by_contra he
    rw [h6 he] at h
    cases h
  · rintro ⟨hw, y, hy, he⟩
    obtain ⟨r, kw, h1, h2, h3, h4, h5, h6⟩ := runSettings_yaml hc hw hy
    exact ⟨r, h5 he⟩

/-- A world with one YAML file. -/
def demoEnv : Env where
  yamlFile p := if p = "args.yaml" then some (.dict demoDoc) else none
  importObject _ _ := none
  spaceOf _ := none

/-- A call with a YAML file that overrides the evaluation limit and passes an argument to the
searcher. -/
def demoCall : Dict Py :=
  [("run_pipeline", .obj (.func "train")),
   ("pipeline_space", .obj (.space [("lr", .const ⟨.num 1, .num 1⟩)])),
   ("run_args", .str "args.yaml"), ("max_evaluations_total", .int 7), ("eta", .int 4)]

theorem demo_yaml : runArgsOf demoEnv (.dict demoDoc) = some
    [("max_evaluations_total", .int 20), ("max_cost_total", .float (5 / 2)),
     ("root_directory", .str "results"),
     ("searcher", .dict [("strategy", .str "hyperband"), ("eta", .int 3)])] := by
  simp [runArgsOf, extractLeafKeys, demoDoc, extractLoop, extractNested, noSpecials, specialNames,
    Dict.keys, Dict.set, Dict.update, Py.isNoneText, Py.isNull, expectedParameters, handleSpecial,
    special, Dict.get?, storeSearcher, searcherOf, typeOk, Py.isInt, Py.isFloat, Py.isStr]

example : ∃ s, runSettings demoEnv demoCall = some s ∧
    s.get? "max_evaluations_total" = some (.int 7) ∧
    s.get? "max_cost_total" = some (.float (5 / 2)) ∧
    s.get? "post_run_summary" = some (.bool true) ∧
    s.get? "searcher_kwargs" ≠ none := by
  have hc : demoCall.keys.Nodup := by decide
  have hy : YamlSettings demoEnv demoCall _ :=
    .file (path := "args.yaml") (.inl rfl) rfl demo_yaml
  obtain ⟨s, kw, h1, h2, h3, h4, h5, h6⟩ := runSettings_yaml hc (by decide) hy
  refine ⟨s, h5 ?_, h2 _ (by decide) (by decide), h2 _ (by decide) (by decide),
    h2 _ (by decide) (by decide), by rw [h3]; simp⟩
  exact ⟨⟨_, rfl, rfl⟩, ⟨_, rfl, rfl⟩, .inl ⟨_, rfl, rfl⟩, .inl ⟨_, rfl, rfl⟩⟩

/-! ## C66: the YAML file is validated -/

/-- The documented type of each argument in the YAML file. -/
inductive HasType (k : String) : Py → Prop
  | anything {v} : k ∈ ["task_id", "development_stage_id"] → HasType k v
  | text {s} : k ∈ ["root_directory", "searcher", "pipeline_space"] → HasType k (.str s)
  | flag {b} : k ∈ ["overwrite_working_directory", "post_run_summary",
      "continue_until_max_evaluation_completed", "ignore_errors"] → HasType k (.bool b)
  | count {n} : k ∈ ["max_evaluations_total", "max_evaluations_per_run", "max_cost_total"] →
      HasType k (.int n)
  /-- Python takes booleans for integers -/
  | countBool {b} : k ∈ ["max_evaluations_total", "max_evaluations_per_run", "max_cost_total"] →
      HasType k (.bool b)
  | number {x} : k ∈ ["max_cost_total", "loss_value_on_error", "cost_value_on_error"] →
      HasType k (.float x)
  | dict {d} : k ∈ ["searcher", "searcher_kwargs", "pipeline_space"] → HasType k (.dict d)
  | space {d} : k ∈ ["searcher", "searcher_kwargs", "pipeline_space"] →
      HasType k (.obj (.space d))
  | optimizer {i} : k ∈ ["searcher"] → HasType k (.obj (.optClass i))
  | function {f} : k ∈ ["run_pipeline"] → f.callable = true → HasType k f
  | functions {l} : k ∈ ["pre_load_hooks"] → (∀ f ∈ l, f.callable = true) → HasType k (.list l)

theorem hasType_of_typeOk {k : String} {v : Py} (h : typeOk k v = true) : HasType k v := by
  unfold typeOk at h
  split_ifs at h with h1 h2 h3 h4 h5 h6 h7 h8 h9 h10 h11
  · exact .anything (by simpa [or_comm] using h1)
  · split at h
    · exact .functions (by simp [h2]) (List.all_eq_true.mp h)
    · cases h
  · split at h
    · exact .text (by simp [h3])
    · exact .dict (by simp [h3])
    · exact .space (by simp [h3])
    · exact .optimizer (by simp [h3])
    · cases h
  · exact .function (by simp [h4]) h
  · unfold Py.isStr at h
    split at h
    · exact .text (by simp [h5])
    · cases h
  · rw [Bool.or_eq_true] at h
    rcases h with h | h
    · unfold Py.isStr at h
      split at h
      · exact .text (by simp [h6])
      · cases h
    · unfold Py.isDict at h
      split at h
      · exact .dict (by simp [h6])
      · exact .space (by simp [h6])
      · cases h
  · unfold Py.isBool at h
    split at h
    · exact .flag (by simpa using h7)
    · cases h
  · unfold Py.isInt at h
    split at h
    · exact .countBool (by rcases h8 with h8 | h8 <;> simp [h8])
    · exact .count (by rcases h8 with h8 | h8 <;> simp [h8])
    · cases h
  · rw [Bool.or_eq_true] at h
    rcases h with h | h
    · unfold Py.isInt at h
      split at h
      · exact .countBool (by simp [h9])
      · exact .count (by simp [h9])
      · cases h
    · unfold Py.isFloat at h
      split at h
      · exact .number (by simp [h9])
      · cases h
  · unfold Py.isFloat at h
    split at h
    · exact .number (by rcases h10 with h10 | h10 <;> simp [h10])
    · cases h
  · unfold Py.isDict at h
    split at h
    · exact .dict (by simp [h11])
    · exact .space (by simp [h11])
    · cases h

theorem special_get? {sp settings : Dict Py} {key : String} {process : Py → Option (Dict Py)}
    {r : Dict Py} (h : special sp key settings process = some r) {k : String}
    (hp : ∀ v r, process v = some r → r.get? k = settings.get? k) :
    r.get? k = settings.get? k := by
  unfold special at h
  split at h
  · rw [Option.some.injEq] at h; rw [h]
  · split_ifs at h
    · rw [Option.some.injEq] at h; rw [h]
    · exact hp _ _ h

theorem storeSearcher_get? {env : Env} {settings r : Dict Py} {v : Py} {k : String}
    (h : storeSearcher env settings v = some r) (h1 : k ≠ "searcher_kwargs") (h2 : k ≠ "searcher") :
    r.get? k = settings.get? k := by
  unfold storeSearcher at h
  split at h
  · cases h
  · rw [Option.some.injEq] at h
    rw [← h, Dict.get?_set, if_neg h2, Dict.get?_set, if_neg h1]
  · rw [Option.some.injEq] at h
    rw [← h, Dict.get?_set, if_neg h2]

theorem map_set_get? {settings r : Dict Py} {o : Option Py} {k k' : String} (hk : k' ≠ k)
    (h : (o.map fun o => settings.set k o) = some r) : r.get? k' = settings.get? k' := by
  obtain ⟨x, _, rfl⟩ := Option.map_eq_some_iff.mp h
  rw [Dict.get?_set, if_neg hk]

theorem handleSpecial_get? {env : Env} {settings sp r : Dict Py}
    (h : handleSpecial env settings sp = some r) {k : String} (hk : k ∈ expectedParameters) :
    r.get? k = settings.get? k := by
  have hne : k ≠ "run_pipeline" ∧ k ≠ "pipeline_space" ∧ k ≠ "searcher" ∧
      k ≠ "searcher_kwargs" ∧ k ≠ "pre_load_hooks" := by
    revert k; decide
  unfold handleSpecial at h
  simp only [Option.bind_eq_bind, Option.bind_eq_some_iff] at h
  obtain ⟨s1, h1, s2, h2, s3, h3, h4⟩ := h
  rw [special_get? h4 fun v r h => map_set_get? hne.2.2.2.2 h,
    special_get? h3 fun v r h => storeSearcher_get? h hne.2.2.2.1 hne.2.2.1,
    special_get? h2 fun v r h => map_set_get? hne.2.1 h,
    special_get? h1 fun v r h => map_set_get? hne.1 h]

/-- **C66**: when the YAML file is accepted, every setting in it, at any depth, is an argument of
`neps.run`; the settings have the documented types; a plain setting that has one value in the file
is taken with that value and one that is not in the file (or is null there) is not taken. -/
theorem C66_accepted {env : Env} {d : List (String × Py)} {y : Dict Py}
    (h : runArgsOf env (.dict d) = some y) :
    (∀ k v, LeafIn d k v → k ∈ expectedParameters) ∧
    (∀ k v, y.get? k = some v → HasType k v) ∧
    (∀ k v, LeafIn d k v → (∀ w, LeafIn d k w → w = v) → y.get? k = some v) ∧
    (∀ k ∈ expectedParameters, (∀ w, ¬ LeafIn d k w) → y.get? k = none) := by
  unfold runArgsOf at h
  simp only at h
  split_ifs at h with hexp
  split at h
  · cases h
  rename_i settings hset
  split_ifs at h with hty
  rw [Option.some.injEq] at h
  subst h
  have hexp' : ∀ k v, LeafIn d k v → k ∈ expectedParameters := by
    intro k v hk
    obtain ⟨p, hp, rfl⟩ := List.mem_map.mp ((C37_leaf_names d k).mpr ⟨v, hk⟩)
    exact of_decide_eq_true (List.all_eq_true.mp hexp p hp)
  refine ⟨hexp', fun k v hk => ?_, fun k v hk hu => ?_, fun k hk hno => ?_⟩
  · exact hasType_of_typeOk (List.all_eq_true.mp hty _ (Dict.mem_of_get? hk))
  · rw [handleSpecial_get? hset (hexp' k v hk)]
    exact C37_leaf_complete_partial d k v hk hu
  · rw [handleSpecial_get? hset hk]
    apply Dict.get?_none
    rw [C37_leaf_names]
    rintro ⟨v, hv⟩
    exact hno v hv

/-- **C66**: a file with a setting that is not an argument of `neps.run` is rejected. -/
theorem C66_unknown {env : Env} {d : List (String × Py)} {k : String} {v : Py}
    (h : LeafIn d k v) (hk : k ∉ expectedParameters) : runArgsOf env (.dict d) = none := by
  cases h' : runArgsOf env (.dict d) with
  | none => rfl
  | some y => exact absurd ((C66_accepted h').1 k v h) hk

/-- **C66**: a file in which a setting has a value of the wrong type is rejected. -/
theorem C66_wrong_type {env : Env} {d : List (String × Py)} {k : String} {v : Py}
    (h : LeafIn d k v) (hu : ∀ w, LeafIn d k w → w = v) (hk : ¬ HasType k v) :
    runArgsOf env (.dict d) = none := by
  cases h' : runArgsOf env (.dict d) with
  | none => rfl
  | some y => exact absurd ((C66_accepted h').2.1 k v ((C66_accepted h').2.2.1 k v h hu)) hk

/-- The document of `C66_wrong_type`: the number of evaluations as text. -/
example (env : Env) : runArgsOf env
    (.dict [("budget", .dict [("max_evaluations_total", .str "20")])]) = none := by
  have hl : ∀ w, LeafIn [("budget", .dict [("max_evaluations_total", .str "20")])]
      "max_evaluations_total" w → w = .str "20" := by
    intro w hw
    cases hw with
    | here h1 => simp at h1
    | under h1 h2 h3 =>
      simp only [List.mem_singleton, Prod.mk.injEq, Py.dict.injEq] at h1
      rw [h1.2] at h3
      cases h3 with
      | here h1 => simpa using h1
      | under h1 => simp at h1
  refine C66_wrong_type (k := "max_evaluations_total") (v := .str "20") ?_ hl (by intro h; cases h <;> simp_all)
  exact .under (k' := "budget") (List.mem_cons_self ..) (by decide)
    (.here (List.mem_cons_self ..) (by decide) (by simp [Py.IsSetting]))

/-- A whole number as penalty value is accepted in a call of `neps.run` but the same value is
rejected in the YAML file, where only numbers written with a decimal point are allowed. -/
theorem C66_integer_penalty_fails (env : Env) :
    runArgsOf env (.dict [("loss_value_on_error", .int 1)]) = none ∧
    ∃ (call : Dict Py) (s : Dict Py), call.get? "loss_value_on_error" = some (.int 1) ∧
      runSettings env call = some s ∧ s.get? "loss_value_on_error" = some (.int 1) := by
  constructor
  · apply C66_wrong_type (k := "loss_value_on_error") (v := .int 1)
      (.here (List.mem_cons_self ..) (by decide) trivial) _ (by intro h; cases h <;> simp_all)
    intro w hw
    cases hw with
    | here h1 => simpa using h1
    | under h1 => simp at h1
  · have hy : YamlSettings env [("run_pipeline", .obj (.func "f")), ("root_directory", .str "r"),
        ("pipeline_space", .obj (.space [("lr", .const ⟨.num 1, .num 1⟩)])),
        ("max_evaluations_total", .int 7), ("loss_value_on_error", .int 1)] [] :=
      .absent (.inl rfl)
    obtain ⟨s, kw, h1, h2, h3, h4, h5, h6⟩ := runSettings_yaml (by decide) (by decide) hy
    refine ⟨_, s, ?_, h5 ?_, h2 _ (by decide) (by decide)⟩
    · rfl
    · exact ⟨⟨_, rfl, rfl⟩, ⟨_, rfl, rfl⟩, .inl ⟨_, rfl, rfl⟩, .inl ⟨_, rfl, rfl⟩⟩

end Verif.Args
