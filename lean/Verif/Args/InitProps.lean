import Verif.Args.InitSpec
import Verif.Args.SettingsProps
import Verif.Args.SpaceYamlProps

/-!
# C143: `neps init` writes run arguments that `neps.run` accepts once they are filled in
-/

namespace Verif.Args

open Verif.Space

/-! ## The files -/

/-- **C143.** A file that exists is never changed, whatever the options. -/
theorem C143_kept (toks : List (String × List String)) (files files' : Files) (out : Option String)
    (h : initCommand toks files = some (files', out)) (q : String) (c : Content)
    (hq : files q = some c) : files' q = some c := by
  obtain ⟨args, -, h⟩ := Option.map_eq_some_iff.mp h
  unfold initConfig at h
  simp only at h
  split at h
  · rename_i hn
    obtain ⟨rfl, -⟩ := Prod.mk.inj h
    simp only
    rw [if_neg]
    · exact hq
    · rintro rfl
      rw [hn] at hq
      cases hq
  · split at h
    · obtain ⟨rfl, -⟩ := Prod.mk.inj h
      exact hq
    · obtain ⟨rfl, -⟩ := Prod.mk.inj h
      exact hq

/-- **C143.** `neps init` without a path makes `run_config.yaml`, and only this file; with a path it
makes the file of this path, and only this file. `--template` says what is in it, and without it the
basic template is. -/
theorem C143_created (path : Option String) (name : Option String) (files : Files)
    (hp : path ≠ some "") (hname : ∀ n, name = some n → n = "basic" ∨ n = "complete")
    (hn : files (path.getD "run_config.yaml") = none) :
    ∃ files', initCommand
        ((path.toList.map fun p => ("--config-path", [p])) ++
          name.toList.map fun n => ("--template", [n])) files = some (files', none) ∧
      files' (path.getD "run_config.yaml") = some (.doc
        (if name = some "complete" then completeTemplate else basicTemplate)) ∧
      ∀ q, q ≠ path.getD "run_config.yaml" → files' q = files q := by
  have ht : ∀ n, name = some n → templateOf (orText (some n) "basic") =
      if name = some "complete" then completeTemplate else basicTemplate := by
    intro n h
    subst h
    rcases hname n rfl with rfl | rfl <;> simp [orText, templateOf]
  have hm : ∀ n, name = some n → n ∈ ["basic", "complete"] := by
    intro n h
    rcases hname n h with rfl | rfl <;> simp
  cases path with
  | none =>
    have hn' : files "run_config.yaml" = none := hn
    cases name with
    | none =>
      refine ⟨_, by simp [initCommand, initConfig, orText, hn']; rfl, ?_, ?_⟩
      · simp [templateOf]
      · intro q hq
        simp only [Option.getD_none] at hq
        simp [hq]
    | some n =>
      have e := ht n rfl
      refine ⟨_, by simp [initCommand, initOne, hm n rfl, initConfig, orText, hn']; rfl, ?_, ?_⟩
      · simpa [orText] using e
      · intro q hq
        simp only [Option.getD_none] at hq
        simp [hq]
  | some p =>
    have hpne : p ≠ "" := fun h => hp (by rw [h])
    have hn' : files p = none := hn
    cases name with
    | none =>
      refine ⟨_, by simp [initCommand, initOne, initConfig, orText, hpne, hn']; rfl, ?_, ?_⟩
      · simp [templateOf]
      · intro q hq
        simp only [Option.getD_some] at hq
        simp [hq]
    | some n =>
      have e := ht n rfl
      refine ⟨_, by simp [initCommand, initOne, hm n rfl, initConfig, orText, hpne, hn']; rfl,
        ?_, ?_⟩
      · simpa [orText] using e
      · intro q hq
        simp only [Option.getD_some] at hq
        simp [hq]

/-- **C143 fails for `--state-machine`**, "Creates a NEPS state. Requires an existing config.yaml":
with an existing file, the option makes nothing at all and says nothing. -/
theorem C143_state_machine_fails (files : Files) (c : Content)
    (h : files "run_config.yaml" = some c) :
    initCommand [("--state-machine", [])] files = some (files, none) := by
  simp [initCommand, initOne, initConfig, orText, h]

/-! ## The templates -/

/-- What the user writes into the basic template. -/
def basicEntries (path name root : String) (fl fu : ℚ) (il iu n : ℤ) (ow : Option Bool) :
    List (List String × Py) :=
  [(["run_pipeline", "path"], .str path), (["run_pipeline", "name"], .str name),
   (["pipeline_space", "float_parameter_name", "lower"], .float fl),
   (["pipeline_space", "float_parameter_name", "upper"], .float fu),
   (["pipeline_space", "int_parameter_name", "lower"], .int il),
   (["pipeline_space", "int_parameter_name", "upper"], .int iu),
   (["root_directory"], .str root), (["max_evaluations_total"], .int n),
   (["overwrite_working_directory"], match ow with | some b => .bool b | none => .null)]

theorem text_scalar (parse : String → Option ℚ) {s : String} (h : isSci s = false) :
    Scalar parse (.str s) (.str s) := by
  refine .text fun h' => ?_
  rw [← isSci_iff, h] at h'
  simp at h'

/-- The space of the filled in basic template. -/
def basicSpace (fl fu : ℚ) (il iu : ℤ) : Dict Py :=
  [("float_parameter_name", .dict
      [("type", .str "float"), ("lower", .float fl), ("upper", .float fu), ("log", .bool false)]),
   ("int_parameter_name", .dict [("type", .str "int"), ("lower", .int il), ("upper", .int iu)]),
   ("categorical_parameter_name", .dict
      [("choices", .list [.str "choice1", .str "choice2", .str "choice3"])]),
   ("constant_parameter_name", .int 17)]

/-- A parameter is as wide as the bounds say. -/
structure FloatIs (p : FloatParam) (l u : ℚ) (log fid : Bool) : Prop where
  lower : p.lower = l
  upper : p.upper = u
  log : p.log = log
  fid : p.isFidelity = fid
  dflt : p.dflt = none

/-- The same for integers. -/
structure IntIs (p : IntParam) (l u : ℤ) (log fid : Bool) : Prop where
  lower : p.lower = l
  upper : p.upper = u
  log : p.log = log
  fid : p.isFidelity = fid
  dflt : p.dflt = none

theorem float_make {l u : ℚ} (log fid : Bool) (h : l < u) (hl : log = true → 0 < l) (score : ℝ) :
    ∃ p, FloatParam.make l u log fid none score = some p ∧ FloatIs p l u log fid := by
  have h' : ¬ ((u : ℝ) ≤ l) := by
    rw [not_le]; exact_mod_cast h
  have h2 : ¬ (log = true ∧ ((l : ℝ) ≤ 0 ∨ (u : ℝ) ≤ 0)) := by
    rintro ⟨h3, h4⟩
    have h5 : (0 : ℝ) < l := by exact_mod_cast hl h3
    have h6 : (l : ℝ) < u := by exact_mod_cast h
    rcases h4 with h4 | h4 <;> linarith
  refine ⟨_, by rw [FloatParam.make, if_neg h', if_neg h2], rfl, rfl, rfl, rfl, rfl⟩

theorem int_make {l u : ℤ} (fid : Bool) (h : l < u) (score : ℝ) :
    ∃ p, IntParam.make ((l : ℚ) : ℝ) ((u : ℚ) : ℝ) false fid none score = some p ∧ IntIs p l u false fid := by
  have h' : ¬ (((u : ℝ) + IntParam.margin) ≤ (l : ℝ) - IntParam.margin) := by
    have : (l : ℝ) < u := by exact_mod_cast h
    unfold IntParam.margin
    linarith
  refine ⟨_, by
    simp only [IntParam.make, Rat.cast_intCast, rnd_intCast]
    rw [if_neg (by omega), if_neg (by simp), if_neg (by simp)]
    simp only [FloatParam.make, if_neg h']
    simp; rfl, rfl, rfl, rfl, rfl, rfl⟩

theorem basic_space (parse : String → Option ℚ)
    (fl fu : ℚ) (il iu : ℤ) (hf : fl < fu) (hi : il < iu) :
    ∃ pf pi pc, DescribesSpace parse (basicSpace fl fu il iu)
      [("float_parameter_name", .float pf), ("int_parameter_name", .int pi),
        ("categorical_parameter_name", .cat pc),
        ("constant_parameter_name", .const ⟨.num 17, .num 17⟩)] ∧
      FloatIs pf fl fu false false ∧ IntIs pi il iu false false ∧
      pc.choices = [.str "choice1", .str "choice2", .str "choice3"] ∧ pc.dflt = none := by
  obtain ⟨pf, h1, h2⟩ := float_make false false hf (by simp) (1 / 2)
  obtain ⟨pi, h3, h4⟩ := int_make false hi (1 / 2)
  refine ⟨pf, pi, ⟨[.str "choice1", .str "choice2", .str "choice3"], none, none, false, 2, 2, none, none⟩,
    ⟨_, .plain (by simp [basicSpace, Dict.keys]), ?_⟩, h2, h4, rfl, rfl⟩
  refine .cons ⟨rfl, .float (l := fl) (u := fu) (log := false) (fid := false) (dflt := none)
    (score := 1 / 2) (.typeFloat (t := "float") rfl (by decide +kernel)) ?_ h1⟩
    (.cons ⟨rfl, .int (l := il) (u := iu) (log := false) (fid := false) (dflt := none)
      (score := 1 / 2) (.typeInt (t := "int") rfl (by decide +kernel)) ?_ ?_ (by simpa using h3)⟩
    (.cons ⟨rfl, .cat (vs := [.str "choice1", .str "choice2", .str "choice3"]) (dflt := none)
      (name := "low") (score := 2) (.choices rfl (Or.inl rfl) rfl) (by decide) rfl
      (.cons (text_scalar _ (by decide +kernel)) (.cons (text_scalar _ (by decide +kernel))
        (.cons (text_scalar _ (by decide +kernel)) .nil))) (Or.inl ⟨rfl, rfl⟩) (Or.inr ⟨rfl, rfl⟩)
      (by simp) (by simp [CatParam.make])⟩
    (.cons ⟨rfl, ?_⟩ .nil)))
  · exact ⟨by simp [Dict.keys], ⟨_, rfl, .float fl⟩, ⟨_, rfl, .float fu⟩, Or.inl rfl, Or.inr ⟨rfl, rfl⟩,
      Or.inl ⟨rfl, rfl⟩, "low", Or.inr ⟨rfl, rfl⟩, by simp⟩
  · exact ⟨_, _, rfl, rfl, Or.inl ⟨.int il, .int iu⟩⟩
  · exact ⟨by simp [Dict.keys], ⟨_, rfl, .int il⟩, ⟨_, rfl, .int iu⟩, Or.inr ⟨rfl, rfl⟩, Or.inr ⟨rfl, rfl⟩,
      Or.inl ⟨rfl, rfl⟩, "low", Or.inr ⟨rfl, rfl⟩, by simp⟩
  · have := Describes.const (Scalar.int (parse := parse) 17)
    simpa using this

/-- A call that gives a file and nothing else has the settings of the file and the defaults. -/
theorem settings_of_file {env : Env} {config : String} {doc : Py} {y : Dict Py}
    (hf : env.yamlFile config = some doc) (hy : runArgsOf env doc = some y)
    (hk : y.get? "searcher_kwargs" = none)
    (he : Essential fun a => (y.get? a).or (signature.get? a)) :
    ∃ s, runSettings env [("run_args", .str config)] = some s ∧ s.keys = attributes ∧
      (∀ a ∈ attributes, a ≠ "searcher_kwargs" → s.get? a = (y.get? a).or (signature.get? a)) ∧
      s.get? "searcher_kwargs" = some (.dict []) := by
  have hy' : YamlSettings env [("run_args", .str config)] y := .file (.inl rfl) hf hy
  obtain ⟨r, kw, h1, h2, h3, h4, h5, -⟩ := runSettings_yaml (by simp [Dict.keys])
    (by simp [Dict.keys]) hy'
  have heff : ∀ a, a ≠ "run_args" → effective [("run_args", .str config)] y a =
      (y.get? a).or (signature.get? a) := by
    intro a ha
    have : explicit [("run_args", .str config)] a = none := by
      unfold explicit
      split_ifs
      · simp [Dict.get?, Ne.symm ha]
      · simp [Dict.get?, Ne.symm ha]
    rw [effective, this, Option.none_or]
  have hkw : kw = [] := by
    rcases kw with _ | ⟨⟨k, v⟩, kw⟩
    · rfl
    · have := h4 k
      simp only [Dict.get?_cons, if_pos] at this
      have e2 : yamlKwargs y = [] := by simp [yamlKwargs, hk]
      rw [e2, Dict.get?_nil, Option.or_none] at this
      unfold explicitKwarg at this
      split_ifs at this with hs
      have hne : k ≠ "run_args" := by
        rintro rfl
        exact hs (Or.inl (by decide))
      simp [Dict.get?, Ne.symm hne] at this
  subst hkw
  refine ⟨r, h5 ?_, h1, fun a ha hne => ?_, h3⟩
  · unfold Essential
    rw [heff _ (by decide), heff _ (by decide), heff _ (by decide), heff _ (by decide),
      heff _ (by decide), heff _ (by decide)]
    exact he
  · rw [h2 a ha hne, heff]
    rintro rfl
    revert ha
    decide

theorem yaml_doc {parse : String → Option ℚ} {imp : String → String → Option Py} {files : Files}
    {config : String} {doc : Py} (h : files config = some (.doc doc)) :
    (yamlEnv parse files.yaml imp).yamlFile config = some doc := by
  simp [yamlEnv, Files.yaml, h]

theorem callable_truthy {f : Py} (h : f.callable = true) : f.truthy = true := by
  unfold Py.callable at h
  split at h <;> first | rfl | cases h

theorem basic_args {env : Env} {path name root : String} {f : Py} {space : Dict Py} {d : Dict Hp}
    {n : ℤ} {ow : Option Bool} (hr : root ≠ "None") (hload : loadObject env (.str path) (.str name) = some f)
    (hcall : f.callable = true) (hsp : pipelineSpaceOf env (.dict space) = some (.obj (.space d))) :
    runArgsOf env (.dict
      [("run_pipeline", .dict [("path", .str path), ("name", .str name)]),
       ("pipeline_space", .dict space), ("root_directory", .str root),
       ("max_evaluations_total", .int n),
       ("overwrite_working_directory", match ow with | some b => .bool b | none => .null)]) =
        some ([("root_directory", .str root), ("max_evaluations_total", .int n)] ++
        (ow.toList.map fun b => ("overwrite_working_directory", .bool b)) ++
        [("run_pipeline", f), ("pipeline_space", .obj (.space d))]) := by
  have hr' : (root == "None") = false := by simpa using hr
  cases ow <;>
  simp [hr', runArgsOf, extractLeafKeys, extractLoop, extractNested, noSpecials, specialNames,
    Dict.keys, Dict.set, Py.isNoneText, Py.isNull, expectedParameters, handleSpecial,
    special, Dict.get?, typeOk, Py.isInt, Py.isFloat, Py.isStr,
    runPipelineOf, hload, hsp, hcall, Py.isBool, Py.isDict]

/-- **C143, the basic template.** After filling in the function, the bounds, the directory and the
limit (and, if wanted, `overwrite_working_directory`), `neps.run` accepts the file, and the run has
exactly the settings that were filled in, the space of the template, and the defaults for the rest. -/
theorem C143_basic (parse : String → Option ℚ) (imp : String → String → Option Py)
    (config path name root : String) (f : Py) (fl fu : ℚ) (il iu n : ℤ) (ow : Option Bool)
    (himp : imp path name = some f) (hcall : f.callable = true) (hf : fl < fu) (hi : il < iu)
    (hroot : root ≠ "") (hroot' : root ≠ "None") (hn : 0 < n) :
    ∃ doc, filledIn basicTemplate (basicEntries path name root fl fu il iu n ow) = some doc ∧
      ∀ files : Files, files config = some (.doc doc) →
        ∃ s pf pi pc, runSettings (yamlEnv parse files.yaml imp) [("run_args", .str config)] = some s ∧
          FloatIs pf fl fu false false ∧ IntIs pi il iu false false ∧
          pc.choices = [.str "choice1", .str "choice2", .str "choice3"] ∧ pc.dflt = none ∧
          s.keys = attributes ∧
          (∀ a v, (a, v) ∈ ([("run_pipeline", f), ("root_directory", .str root),
            ("pipeline_space", .obj (.space
              [("float_parameter_name", .float pf), ("int_parameter_name", .int pi),
               ("categorical_parameter_name", .cat pc),
               ("constant_parameter_name", .const ⟨.num 17, .num 17⟩)])),
            ("max_evaluations_total", .int n), ("overwrite_working_directory", .bool (ow.getD false)),
            ("post_run_summary", .bool true), ("development_stage_id", .null), ("task_id", .null),
            ("max_evaluations_per_run", .null),
            ("continue_until_max_evaluation_completed", .bool false), ("max_cost_total", .null),
            ("ignore_errors", .bool false), ("loss_value_on_error", .null),
            ("cost_value_on_error", .null), ("pre_load_hooks", .null),
            ("searcher", .str "default"), ("searcher_kwargs", .dict [])] : Dict Py) →
            s.get? a = some v) := by
  have hdoc : filledIn basicTemplate (basicEntries path name root fl fu il iu n ow) = some (.dict
      [("run_pipeline", .dict [("path", .str path), ("name", .str name)]),
       ("pipeline_space", .dict (basicSpace fl fu il iu)), ("root_directory", .str root),
       ("max_evaluations_total", .int n),
       ("overwrite_working_directory", match ow with | some b => .bool b | none => .null)]) := by
    simp [filledIn, basicEntries, basicTemplate, putAt, Dict.get?, Dict.set, Dict.keys, basicSpace]
  refine ⟨_, hdoc, fun files hfile => ?_⟩
  obtain ⟨pf, pi, pc, hsp, h1, h2, h3, h4⟩ := basic_space parse fl fu il iu hf hi
  have hps := (C69_inline_partial parse files.yaml imp (basicSpace fl fu il iu) _
    (by simp [basicSpace])).mpr hsp
  have hyaml : (yamlEnv parse files.yaml imp).yamlFile config = some _ :=
    yaml_doc hfile
  have hload : loadObject (yamlEnv parse files.yaml imp) (.str path) (.str name) = some f := by
    simp [loadObject, yamlEnv, himp]
  have hargs := basic_args (n := n) (ow := ow) hroot' hload hcall hps
  have hft : f.truthy = true := callable_truthy hcall
  obtain ⟨s, e1, e2, e3, e4⟩ := settings_of_file hyaml hargs (by cases ow <;> simp [Dict.get?]) (by
    refine ⟨⟨f, ?_, hft⟩, ⟨.str root, ?_, by simpa [Py.truthy] using hroot⟩,
      Or.inl ⟨_, Eq.trans ?_ (Eq.refl (some (Py.obj (.space
        [("float_parameter_name", .float pf), ("int_parameter_name", .int pi),
         ("categorical_parameter_name", .cat pc),
         ("constant_parameter_name", .const ⟨.num 17, .num 17⟩)])))), rfl⟩, Or.inl ⟨.int n, ?_, by simp [Py.truthy]; omega⟩⟩
    all_goals cases ow <;> simp [Dict.get?])
  refine ⟨s, pf, pi, pc, e1, h1, h2, h3, h4, e2, ?_⟩
  intro a v hav
  simp only [List.mem_cons, List.not_mem_nil, or_false, Prod.mk.injEq] at hav
  rcases hav with ⟨rfl, rfl⟩ | ⟨rfl, rfl⟩ | ⟨rfl, rfl⟩ | ⟨rfl, rfl⟩ | ⟨rfl, rfl⟩ | ⟨rfl, rfl⟩ |
    ⟨rfl, rfl⟩ | ⟨rfl, rfl⟩ | ⟨rfl, rfl⟩ | ⟨rfl, rfl⟩ | ⟨rfl, rfl⟩ | ⟨rfl, rfl⟩ | ⟨rfl, rfl⟩ |
    ⟨rfl, rfl⟩ | ⟨rfl, rfl⟩ | ⟨rfl, rfl⟩ | ⟨rfl, rfl⟩
  all_goals first
    | exact e4
    | (rw [e3 _ (by decide) (by decide)]
       cases ow <;> simp [Dict.get?, signature])

/-! ## The complete template -/

/-- What the user has to write into the complete template. -/
def completeEntries (path name root : String) : List (List String × Py) :=
  [(["run_pipeline", "path"], .str path), (["run_pipeline", "name"], .str name),
   (["root_directory"], .str root)]

/-- The space of the complete template. -/
def completeSpace : Dict Py :=
  [("learning_rate", .dict [("lower", .str "1e-5"), ("upper", .str "1e-1"), ("log", .bool true)]),
   ("epochs", .dict [("lower", .int 5), ("upper", .int 20), ("is_fidelity", .bool true)]),
   ("optimizer", .dict [("choices", .list [.str "adam", .str "sgd", .str "adamw"])]),
   ("batch_size", .int 64)]

theorem complete_space (parse : String → Option ℚ) (hl : parse "1e-5" = some (1 / 100000))
    (hu : parse "1e-1" = some (1 / 10)) :
    ∃ pf pi pc, DescribesSpace parse completeSpace
      [("learning_rate", .float pf), ("epochs", .int pi), ("optimizer", .cat pc),
        ("batch_size", .const ⟨.num 64, .num 64⟩)] ∧
      FloatIs pf (1 / 100000) (1 / 10) true false ∧ IntIs pi 5 20 false true ∧
      pc.choices = [.str "adam", .str "sgd", .str "adamw"] ∧ pc.dflt = none := by
  obtain ⟨pf, h1, h2⟩ := float_make (l := 1 / 100000) (u := 1 / 10) true false (by norm_num)
    (by norm_num) (1 / 2)
  obtain ⟨pi, h3, h4⟩ := int_make (l := 5) (u := 20) true (by norm_num) (1 / 2)
  have hs : Sci "1e-5" := by rw [← isSci_iff]; decide +kernel
  refine ⟨pf, pi, ⟨[.str "adam", .str "sgd", .str "adamw"], none, none, false, 2, 2, none, none⟩,
    ⟨_, .plain (by simp [completeSpace, Dict.keys]), ?_⟩, h2, h4, rfl, rfl⟩
  refine .cons ⟨rfl, .float (l := 1 / 100000) (u := 1 / 10) (log := true) (fid := false)
    (dflt := none) (score := 1 / 2) (.sci rfl rfl rfl (.str hl) (.str hu) (Or.inl (.str hs))) ?_ h1⟩
    (.cons ⟨rfl, .int (l := 5) (u := 20) (log := false) (fid := true) (dflt := none)
      (score := 1 / 2) (.ints rfl rfl rfl (.int 5) (.int 20)) ?_ ?_ (by simpa using h3)⟩
    (.cons ⟨rfl, .cat (vs := [.str "adam", .str "sgd", .str "adamw"]) (dflt := none)
      (name := "low") (score := 2) (.choices rfl (Or.inl rfl) rfl) (by decide) rfl
      (.cons (text_scalar _ (by decide +kernel)) (.cons (text_scalar _ (by decide +kernel))
        (.cons (text_scalar _ (by decide +kernel)) .nil))) (Or.inl ⟨rfl, rfl⟩) (Or.inr ⟨rfl, rfl⟩)
      (by simp) (by simp [CatParam.make])⟩
    (.cons ⟨rfl, ?_⟩ .nil)))
  · exact ⟨by simp [Dict.keys], ⟨_, rfl, .str hl⟩, ⟨_, rfl, .str hu⟩, Or.inl rfl, Or.inr ⟨rfl, rfl⟩,
      Or.inl ⟨rfl, rfl⟩, "low", Or.inr ⟨rfl, rfl⟩, by simp⟩
  · exact ⟨_, _, rfl, rfl, Or.inl ⟨.int 5, .int 20⟩⟩
  · exact ⟨by simp [Dict.keys], ⟨_, rfl, .int 5⟩, ⟨_, rfl, .int 20⟩, Or.inr ⟨rfl, rfl⟩, Or.inl rfl,
      Or.inl ⟨rfl, rfl⟩, "low", Or.inr ⟨rfl, rfl⟩, by simp⟩
  · have := Describes.const (Scalar.int (parse := parse) 64)
    simpa using this

/-- The filled in complete template. -/
def completeDoc (path name root : String) : List (String × Py) :=
  [("run_pipeline", .dict [("path", .str path), ("name", .str name)]),
   ("pipeline_space", .dict completeSpace), ("root_directory", .str root),
   ("max_evaluations_total", .int 20), ("max_cost_total", .null),
   ("overwrite_working_directory", .bool false), ("post_run_summary", .bool true),
   ("development_stage_id", .null), ("task_id", .null), ("max_evaluations_per_run", .null),
   ("continue_until_max_evaluation_completed", .bool true), ("loss_value_on_error", .null),
   ("cost_value_on_error", .null), ("ignore_errors", .null), ("searcher", .str "hyperband"),
   ("pre_load_hooks", .null)]

theorem complete_args {env : Env} {path name root : String} {f : Py} {d : Dict Hp}
    (hr : root ≠ "None") (hload : loadObject env (.str path) (.str name) = some f)
    (hcall : f.callable = true)
    (hsp : pipelineSpaceOf env (.dict completeSpace) = some (.obj (.space d))) :
    runArgsOf env (.dict (completeDoc path name root)) =
      some [("root_directory", .str root), ("max_evaluations_total", .int 20),
        ("overwrite_working_directory", .bool false), ("post_run_summary", .bool true),
        ("continue_until_max_evaluation_completed", .bool true),
        ("run_pipeline", f), ("pipeline_space", .obj (.space d)), ("searcher", .str "hyperband")] := by
  have hr' : (root == "None") = false := by simpa using hr
  simp [completeDoc, hr', runArgsOf, extractLeafKeys, extractLoop, extractNested, noSpecials,
    specialNames, Dict.keys, Dict.set, Py.isNoneText, Py.isNull, expectedParameters, handleSpecial,
    special, Dict.get?, typeOk, Py.isInt, Py.isFloat, Py.isStr, storeSearcher, searcherOf,
    runPipelineOf, hload, hsp, hcall, Py.isBool, Py.isDict]

/-- **C143, the complete template.** After filling in the function and the directory, `neps.run`
accepts the file, and the run has the settings written in the template. -/
theorem C143_complete (parse : String → Option ℚ) (imp : String → String → Option Py)
    (hl : parse "1e-5" = some (1 / 100000)) (hu : parse "1e-1" = some (1 / 10))
    (config path name root : String) (f : Py)
    (himp : imp path name = some f) (hcall : f.callable = true)
    (hroot : root ≠ "") (hroot' : root ≠ "None") :
    ∃ doc, filledIn completeTemplate (completeEntries path name root) = some doc ∧
      ∀ files : Files, files config = some (.doc doc) →
        ∃ s pf pi pc, runSettings (yamlEnv parse files.yaml imp) [("run_args", .str config)] = some s ∧
          FloatIs pf (1 / 100000) (1 / 10) true false ∧ IntIs pi 5 20 false true ∧
          pc.choices = [.str "adam", .str "sgd", .str "adamw"] ∧ pc.dflt = none ∧
          s.keys = attributes ∧
          (∀ a v, (a, v) ∈ ([("run_pipeline", f), ("root_directory", .str root),
            ("pipeline_space", .obj (.space
              [("learning_rate", .float pf), ("epochs", .int pi), ("optimizer", .cat pc),
               ("batch_size", .const ⟨.num 64, .num 64⟩)])),
            ("max_evaluations_total", .int 20), ("overwrite_working_directory", .bool false),
            ("post_run_summary", .bool true), ("development_stage_id", .null), ("task_id", .null),
            ("max_evaluations_per_run", .null),
            ("continue_until_max_evaluation_completed", .bool true), ("max_cost_total", .null),
            ("ignore_errors", .bool false), ("loss_value_on_error", .null),
            ("cost_value_on_error", .null), ("pre_load_hooks", .null),
            ("searcher", .str "hyperband"), ("searcher_kwargs", .dict [])] : Dict Py) →
            s.get? a = some v) := by
  have hdoc : filledIn completeTemplate (completeEntries path name root) =
      some (.dict (completeDoc path name root)) := by
    simp [filledIn, completeEntries, completeTemplate, putAt, Dict.get?, Dict.set, Dict.keys,
      completeDoc, completeSpace]
  refine ⟨_, hdoc, fun files hfile => ?_⟩
  obtain ⟨pf, pi, pc, hsp, h1, h2, h3, h4⟩ := complete_space parse hl hu
  have hps := (C69_inline_partial parse files.yaml imp completeSpace _
    (by simp [completeSpace])).mpr hsp
  have hload : loadObject (yamlEnv parse files.yaml imp) (.str path) (.str name) = some f := by
    simp [loadObject, yamlEnv, himp]
  have hargs := complete_args hroot' hload hcall hps
  obtain ⟨s, e1, e2, e3, e4⟩ := settings_of_file (yaml_doc hfile) hargs (by simp [Dict.get?]) (by
    refine ⟨⟨f, ?_, callable_truthy hcall⟩, ⟨.str root, ?_, by simpa [Py.truthy] using hroot⟩,
      Or.inl ⟨_, Eq.trans ?_ (Eq.refl (some (Py.obj (.space
        [("learning_rate", .float pf), ("epochs", .int pi), ("optimizer", .cat pc),
         ("batch_size", .const ⟨.num 64, .num 64⟩)])))), rfl⟩, Or.inl ⟨.int 20, ?_, by simp [Py.truthy]⟩⟩
    all_goals simp [Dict.get?])
  refine ⟨s, pf, pi, pc, e1, h1, h2, h3, h4, e2, ?_⟩
  intro a v hav
  simp only [List.mem_cons, List.not_mem_nil, or_false, Prod.mk.injEq] at hav
  rcases hav with ⟨rfl, rfl⟩ | ⟨rfl, rfl⟩ | ⟨rfl, rfl⟩ | ⟨rfl, rfl⟩ | ⟨rfl, rfl⟩ | ⟨rfl, rfl⟩ |
    ⟨rfl, rfl⟩ | ⟨rfl, rfl⟩ | ⟨rfl, rfl⟩ | ⟨rfl, rfl⟩ | ⟨rfl, rfl⟩ | ⟨rfl, rfl⟩ | ⟨rfl, rfl⟩ |
    ⟨rfl, rfl⟩ | ⟨rfl, rfl⟩ | ⟨rfl, rfl⟩ | ⟨rfl, rfl⟩
  all_goals first
    | exact e4
    | (rw [e3 _ (by decide) (by decide)]
       simp [Dict.get?, signature])

/-- **C143.** Without a path, `neps init` makes the file in which `neps status`, `neps results`,
`neps errors` and the other commands look for the directory of the run: they find the one that was
filled in. -/
theorem C143_found (imp : String → String → Option Py) (parse : String → Option ℚ) (root : String)
    (hroot : root ≠ "") (template : Py) (ht : template ∈ [basicTemplate, completeTemplate]) :
    ∃ doc, filledIn template [(["root_directory"], .str root)] = some doc ∧
      ∀ files : Files, files "run_config.yaml" = some (.doc doc) →
        getRootDirectory (yamlEnv parse files.yaml imp) none = some (.str root) := by
  simp only [List.mem_cons, List.not_mem_nil, or_false] at ht
  rcases ht with rfl | rfl
  all_goals
    refine ⟨_, by simp [filledIn, basicTemplate, completeTemplate, putAt, Dict.get?, Dict.set,
      Dict.keys]; rfl, fun files hf => ?_⟩
    simp [getRootDirectory, yaml_doc hf, Dict.get?, Py.truthy, hroot]

/-! ## Examples -/

/-- The hypotheses of `C143_kept` and `C143_state_machine_fails`: a second `neps init`. -/
example : initCommand [("--template", ["complete"])]
    (fun q => if q = "run_config.yaml" then some (.doc basicTemplate) else none) =
    some (fun q => if q = "run_config.yaml" then some (.doc basicTemplate) else none,
      some "Path run_config.yaml does already exist.") := by
  simp [initCommand, initOne, initConfig, orText]

/-- The hypotheses of `C143_created`. -/
example : ∃ files' : Files, initCommand [("--config-path", ["a.yaml"]), ("--template", ["complete"])]
    (fun _ => none) = some (files', none) ∧ files' "a.yaml" = some (.doc completeTemplate) := by
  obtain ⟨f, h1, h2, -⟩ := C143_created (some "a.yaml") (some "complete") (fun _ => none) (by simp)
    (by simp) rfl
  exact ⟨f, h1, h2⟩

/-- A world with one function. -/
def trainImp (path name : String) : Option Py :=
  if path = "train.py" ∧ name = "train" then some (.obj (.func "train")) else none

/-- The hypotheses of `C143_basic`. -/
example : ∃ doc, filledIn basicTemplate
      (basicEntries "train.py" "train" "results" (1 / 10) 2 1 9 20 (some true)) = some doc ∧
    ∃ s, runSettings (yamlEnv (fun _ => none)
      (Files.yaml fun q => if q = "run_config.yaml" then some (.doc doc) else none) trainImp)
      [("run_args", .str "run_config.yaml")] = some s ∧
      s.get? "overwrite_working_directory" = some (.bool true) := by
  obtain ⟨doc, h1, h2⟩ := C143_basic (fun _ => none) trainImp "run_config.yaml" "train.py" "train"
    "results" (.obj (.func "train")) (1 / 10) 2 1 9 20 (some true) (by simp [trainImp]) rfl
    (by norm_num) (by norm_num) (by decide) (by decide) (by norm_num)
  obtain ⟨s, pf, pi, pc, h3, -, -, -, -, -, h4⟩ := h2
    (fun q => if q = "run_config.yaml" then some (.doc doc) else none) (by simp)
  exact ⟨doc, h1, s, h3, h4 _ _ (by simp)⟩

end Verif.Args
