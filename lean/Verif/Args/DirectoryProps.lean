import Verif.Args.CommandProps

/-!
# C127: the commands that show a run look at the directory of the run
-/

namespace Verif.Args

open Verif.Space (Dict)
open Verif.Space

/-! ## Specification -/

/-- The commands that show a run, called with `--root-directory` as given, look at the directory of the
run with the settings `s`. -/
def LooksAt (env : Env) (str : Py → String) (option : Option String) (s : Dict Py) : Prop :=
  ∃ d, getRootDirectory env option = some d ∧ str d = runDirectory str s

/-! ## Lemmas -/

theorem append_ne {s t : String} (h : t ≠ "") : s ++ t ≠ s := by
  intro h'
  apply h
  have : (s ++ t).toList = s.toList := by rw [h']
  rw [String.toList_append] at this
  replace this := List.append_right_eq_self.mp this
  exact String.toList_injective (by rw [this]; rfl)

theorem runDirectory_iff {str : Py → String} {s : Dict Py} {v : Py}
    (hs : s.get? "root_directory" = some v) : runDirectory str s = str v ↔
      ((s.get? "task_id").getD .null).isNull = true ∧
        ((s.get? "development_stage_id").getD .null).isNull = true := by
  have hne : ∀ (a b : String), a ≠ "" → a ++ b ≠ "" := by
    intro a b ha h
    apply ha
    have : (a ++ b).toList = [] := by rw [h]; rfl
    rw [String.toList_append, List.append_eq_nil_iff] at this
    exact String.toList_injective (by rw [this.1]; rfl)
  unfold runDirectory
  simp only [hs, Option.getD_some]
  cases h1 : ((s.get? "task_id").getD .null).isNull <;>
    cases h2 : ((s.get? "development_stage_id").getD .null).isNull
  · simp only [Bool.false_eq_true, if_false, and_self, iff_false]
    rw [String.append_assoc, String.append_assoc, String.append_assoc]
    exact append_ne (hne "/task_" _ (by decide))
  · simp only [Bool.false_eq_true, if_false, if_true, false_and, iff_false]
    rw [String.append_assoc]
    exact append_ne (hne "/task_" _ (by decide))
  · simp only [Bool.false_eq_true, if_false, if_true, and_false, iff_false]
    rw [String.append_assoc]
    exact append_ne (hne "/dev_" _ (by decide))
  · simp

theorem isNull_iff {o : Option Py} : (o.getD .null).isNull = true ↔ o = none ∨ o = some .null := by
  cases o with
  | none => simp [Py.isNull]
  | some v => cases v <;> simp [Py.isNull]

/-- The settings of a run have every attribute. -/
theorem settings_null {env : Env} {call s : Dict Py} (hc : call.keys.Nodup)
    (h : runSettings env call = some s) {name : String} (hn : name ∈ attributes) :
    ((s.get? name).getD .null).isNull = true ↔ s.get? name = some .null := by
  rw [isNull_iff]
  have hk : name ∈ s.keys := by rw [(C36_precedence hc h).1]; exact hn
  obtain ⟨v, hv⟩ := Dict.mem_keys_iff.mp hk
  simp [hv]

theorem settings_root {env : Env} {call s : Dict Py} (hc : call.keys.Nodup)
    (h : runSettings env call = some s) :
    ∃ v, s.get? "root_directory" = some v ∧ v.truthy = true := by
  obtain ⟨hw, y, hy, he⟩ := (C36_complete hc).mp ⟨s, h⟩
  obtain ⟨r, kw, h1, h2, h3, h4, h5, h6⟩ := runSettings_yaml hc hw hy
  have hr : r = s := Option.some.inj ((h5 he).symm.trans h)
  subst hr
  obtain ⟨v, hv, ht⟩ := he.2.1
  exact ⟨v, by rw [h2 _ (by decide) (by decide)]; exact hv, ht⟩

/-! ## C127 -/

/-- **C127 (partial)**: with the root directory of the run as option, the commands look at the directory
of the run, exactly if the run has no task and no development stage. Missing: with a task or a stage they
look at a directory above it (`C127_task_fails`). -/
theorem C127_option_partial {env : Env} {str : Py → String} {call s : Dict Py} {d : String}
    (hc : call.keys.Nodup) (h : runSettings env call = some s)
    (hd : call.get? "root_directory" = some (.str d)) :
    LooksAt env str (some d) s ↔
      s.get? "task_id" = some .null ∧ s.get? "development_stage_id" = some .null := by
  have hroot : s.get? "root_directory" = some (.str d) := by
    obtain ⟨-, y, -, h2, -⟩ := C36_precedence hc h
    rw [h2 _ (by decide) (by decide)]
    simp [effective, explicit, hd]
  have hne : d ≠ "" := by
    obtain ⟨v, hv, ht⟩ := settings_root hc h
    rw [hroot] at hv
    cases Option.some.inj hv
    rintro rfl
    simp [Py.truthy] at ht
  have hget : getRootDirectory env (some d) = some (.str d) := by
    unfold getRootDirectory
    simp only
    rw [if_pos hne]
  unfold LooksAt
  rw [hget]
  rw [← settings_null hc h (by decide), ← settings_null hc h (by decide), ← runDirectory_iff (str := str) hroot]
  constructor
  · rintro ⟨d', hd', he⟩
    cases Option.some.inj hd'
    exact he.symm
  · intro he
    exact ⟨_, rfl, he.symm⟩

/-- **C127, what fails**: for every run with a task or a development stage the commands, called with the
root directory that the user gave, look at another directory. -/
theorem C127_task_fails {env : Env} {str : Py → String} {call s : Dict Py} {d : String}
    (hc : call.keys.Nodup) (h : runSettings env call = some s)
    (hd : call.get? "root_directory" = some (.str d))
    (ht : (∃ t, call.get? "task_id" = some t ∧ t ≠ .null) ∨
      ∃ t, call.get? "development_stage_id" = some t ∧ t ≠ .null) :
    ¬ LooksAt env str (some d) s := by
  rw [C127_option_partial hc h hd]
  obtain ⟨-, y, -, h2, -⟩ := C36_precedence hc h
  rintro ⟨h3, h4⟩
  rcases ht with ⟨t, h5, h6⟩ | ⟨t, h5, h6⟩
  · rw [h2 _ (by decide) (by decide)] at h3
    simp [effective, explicit, h5] at h3
    exact h6 h3
  · rw [h2 _ (by decide) (by decide)] at h4
    simp [effective, explicit, h5] at h4
    exact h6 h4

/-- **C127 (partial)**: for a run started with `run_config.yaml`, whose root directory is written at the
top of the file and not overridden, the commands without option look at the directory of the run, exactly
if it has no task and no development stage. Missing: a root directory in a section of the file
(`C127_section_fails`), and tasks and stages. -/
theorem C127_file_partial {env : Env} {str : Py → String} {call s : Dict Py}
    {doc : List (String × Py)} {d : String}
    (hc : call.keys.Nodup) (h : runSettings env call = some s)
    (hr : call.get? "run_args" = some (.str "run_config.yaml"))
    (hf : env.yamlFile "run_config.yaml" = some (.dict doc))
    (hd : Dict.get? doc "root_directory" = some (.str d)) (hN : d ≠ "None")
    (hu : ∀ w, LeafIn doc "root_directory" w → w = .str d)
    (ho : "root_directory" ∉ call.keys) :
    LooksAt env str none s ↔
      s.get? "task_id" = some .null ∧ s.get? "development_stage_id" = some .null := by
  have hroot : s.get? "root_directory" = some (.str d) := by
    obtain ⟨-, y, hy, h2, -⟩ := C36_precedence hc h
    rw [h2 _ (by decide) (by decide)]
    have hy' : runArgsOf env (.dict doc) = some y := by
      cases hy with
      | absent hn => rw [hr] at hn; simp at hn
      | file h1 h3 h4 =>
        rw [hr] at h1
        rcases h1 with h1 | h1
        · cases Option.some.inj h1
          rw [hf] at h3
          cases Option.some.inj h3
          exact h4
        · cases Option.some.inj h1
    have hleaf : LeafIn doc "root_directory" (.str d) :=
      .here (Dict.mem_of_get? hd) (by decide) hN
    have := (C66_accepted hy').2.2.1 _ _ hleaf hu
    simp [effective, explicit, Dict.get?_none ho, this]
  have hne : (Py.str d).truthy = true := by
    obtain ⟨v, hv, ht⟩ := settings_root hc h
    rw [hroot] at hv
    cases Option.some.inj hv
    exact ht
  have hget : getRootDirectory env none = some (.str d) := by
    unfold getRootDirectory
    simp only [hf, hd, hne, if_true]
  unfold LooksAt
  rw [hget]
  rw [← settings_null hc h (by decide), ← settings_null hc h (by decide), ← runDirectory_iff (str := str) hroot]
  constructor
  · rintro ⟨d', hd', he⟩
    cases Option.some.inj hd'
    exact he.symm
  · intro he
    exact ⟨_, rfl, he.symm⟩

/-- **C127**: without the option and without a root directory at the top of `run_config.yaml` the commands
end with an error. -/
theorem C127_no_directory {env : Env}
    (h : ∀ doc, env.yamlFile "run_config.yaml" = some (.dict doc) →
      ∀ v, Dict.get? doc "root_directory" = some v → v.truthy = false) :
    getRootDirectory env none = none := by
  unfold getRootDirectory
  simp only
  split
  · rename_i doc hf
    split
    · rename_i v hv
      rw [h doc hf v hv]
      rfl
    · rfl
  · rfl

/-- A file whose root directory is in a section. -/
def sectionDoc : List (String × Py) :=
  [("directories", .dict [("root_directory", .str "results")]), ("max_evaluations_total", .int 5)]

/-- A world with this file. -/
def sectionEnv (doc : List (String × Py)) : Env where
  yamlFile p := if p = "run_config.yaml" then some (.dict doc) else none
  importObject _ _ := none
  spaceOf _ := none

/-- A call with this file. -/
def sectionCall : Dict Py :=
  [("run_pipeline", .obj (.func "train")), ("pipeline_space", .str "space.yaml"),
   ("run_args", .str "run_config.yaml")]

theorem section_yaml : runArgsOf (sectionEnv sectionDoc) (.dict sectionDoc) = some
    [("root_directory", .str "results"), ("max_evaluations_total", .int 5)] := by
  simp [runArgsOf, extractLeafKeys, sectionDoc, extractLoop, extractNested, noSpecials, specialNames,
    Dict.keys, Dict.set, Dict.update, Py.isNoneText, Py.isNull, expectedParameters, handleSpecial,
    special, Dict.get?, typeOk, Py.isInt, Py.isFloat, Py.isStr]

/-- **C127, what fails**: with the root directory in a section of `run_config.yaml` the run starts, and
the commands do not find the directory. -/
theorem C127_section_fails : ∃ s, runSettings (sectionEnv sectionDoc) sectionCall = some s ∧
    s.get? "root_directory" = some (.str "results") ∧ s.get? "task_id" = some .null ∧
    s.get? "development_stage_id" = some .null ∧
    getRootDirectory (sectionEnv sectionDoc) none = none := by
  have hc : sectionCall.keys.Nodup := by decide
  have hy : YamlSettings (sectionEnv sectionDoc) sectionCall _ :=
    .file (path := "run_config.yaml") (.inl rfl) rfl section_yaml
  obtain ⟨s, kw, h1, h2, h3, h4, h5, h6⟩ := runSettings_yaml hc (by decide) hy
  refine ⟨s, h5 ?_, h2 _ (by decide) (by decide), h2 _ (by decide) (by decide),
    h2 _ (by decide) (by decide), ?_⟩
  · exact ⟨⟨_, rfl, rfl⟩, ⟨_, rfl, rfl⟩, .inl ⟨_, rfl, rfl⟩, .inl ⟨_, rfl, rfl⟩⟩
  · exact C127_no_directory fun doc hf v hv => by
      have : doc = sectionDoc := by
        have := Option.some.inj hf
        cases this
        rfl
      subst this
      simp [sectionDoc, Dict.get?] at hv

/-- The same file with the root directory at the top. -/
def topDoc : List (String × Py) :=
  [("root_directory", .str "results"), ("max_evaluations_total", .int 5)]

theorem top_yaml : runArgsOf (sectionEnv topDoc) (.dict topDoc) = some topDoc := by
  simp [runArgsOf, extractLeafKeys, topDoc, extractLoop, extractNested, noSpecials, specialNames,
    Dict.keys, Dict.set, Py.isNoneText, Py.isNull, expectedParameters, handleSpecial,
    special, Dict.get?, typeOk, Py.isInt, Py.isFloat, Py.isStr]

/-- The hypotheses of `C127_file_partial` hold, and so do both sides. -/
example (str : Py → String) : ∃ s, runSettings (sectionEnv topDoc) sectionCall = some s ∧
    LooksAt (sectionEnv topDoc) str none s := by
  have hc : sectionCall.keys.Nodup := by decide
  have hy : YamlSettings (sectionEnv topDoc) sectionCall _ :=
    .file (path := "run_config.yaml") (.inl rfl) rfl top_yaml
  obtain ⟨s, kw, h1, h2, h3, h4, h5, h6⟩ := runSettings_yaml hc (by decide) hy
  have hs := h5 ⟨⟨_, rfl, rfl⟩, ⟨_, rfl, rfl⟩, .inl ⟨_, rfl, rfl⟩, .inl ⟨_, rfl, rfl⟩⟩
  refine ⟨s, hs, (C127_file_partial (d := "results") hc hs rfl rfl rfl (by decide) ?_ (by decide)).mpr
    ⟨h2 _ (by decide) (by decide), h2 _ (by decide) (by decide)⟩⟩
  intro w hw
  cases hw with
  | here h1 => simpa [topDoc] using h1
  | under h1 => simp [topDoc] at h1

/-- A call with a root directory and maybe a task. -/
def taskCall (task : Py) : Dict Py :=
  [("run_pipeline", .obj (.func "train")), ("pipeline_space", .str "space.yaml"),
   ("root_directory", .str "results"), ("max_evaluations_total", .int 5), ("task_id", task)]

/-- The hypotheses of `C127_option_partial` and of `C127_task_fails` hold. -/
example (task : Py) : ∃ s, runSettings (sectionEnv topDoc) (taskCall task) = some s ∧
    (taskCall task).get? "root_directory" = some (.str "results") ∧
    s.get? "task_id" = some task ∧ s.get? "development_stage_id" = some .null := by
  have hc : (taskCall task).keys.Nodup := by simp [taskCall, Dict.keys]
  have hy : YamlSettings (sectionEnv topDoc) (taskCall task) _ := .absent (.inl rfl)
  obtain ⟨s, kw, h1, h2, h3, h4, h5, h6⟩ := runSettings_yaml hc
    (by show _ ∉ ["run_pipeline", "pipeline_space", "root_directory", "max_evaluations_total", "task_id"]; decide) hy
  have hs := h5 ⟨⟨_, rfl, rfl⟩, ⟨_, rfl, rfl⟩, .inl ⟨_, rfl, rfl⟩, .inl ⟨_, rfl, rfl⟩⟩
  exact ⟨s, hs, rfl, h2 _ (by decide) (by decide), h2 _ (by decide) (by decide)⟩

end Verif.Args
