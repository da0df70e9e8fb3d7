import Verif.Args.ConstructBrackets
import Verif.Space.SpaceDemo

/-!
# The settings reach the optimizer (C140)
-/

namespace Verif.Args

open Verif.Space (Dict)
open Verif.Space

/-! ## Lemmas -/

theorem gives_iff {ctx : Ctx} {b : Built} {o : Made} {c : Chain} (hc : chainOf b.cls = some c) :
    Gives ctx b o ↔ construct ctx c b.space (("budget", b.budget) :: b.kwargs) = .ok o := by
  unfold Gives Built.make
  rw [hc]
  simp

theorem value_call {b : Built} {c : Chain} (hc : chainOf b.cls = some c) (p : String) :
    c.sig.value (("budget", b.budget) :: b.kwargs) p = b.setting p := by
  unfold Sig.value Built.setting
  rw [Dict.get?_cons, hc]
  by_cases h : p = "budget"
  · subst h; simp
  · rw [if_neg h, if_neg fun h' => h h'.symm]; simp

/-- The table of the settings agrees with the constructors. -/
def tableOk (cls : String) (c : Chain) : Bool :=
  (shownSettings cls).all fun q => fromArg c q.2 q.1

theorem attr_of_table {ctx : Ctx} {b : Built} {o : Made} {c : Chain} (hc : chainOf b.cls = some c)
    (ht : tableOk b.cls c = true) (h : Gives ctx b o) {k a : String}
    (hk : (k, a) ∈ shownSettings b.cls) : o.attr a = some (b.setting k) := by
  rw [gives_iff hc] at h
  rw [tableOk, List.all_eq_true] at ht
  have := construct_attr h (fromArg_iff (ht _ hk))
  unfold Made.attr
  rw [this]
  simp only [Src.val]
  rw [value_call hc]

/-- The classes with settings. -/
theorem shown_classes {cls : String} {k a : String} (h : (k, a) ∈ shownSettings cls) :
    cls = "BayesianOptimization" ∨ cls = "RandomSearch" ∨ cls = "IFBO" ∨ cls ∈ halvingClasses := by
  unfold shownSettings at h
  split_ifs at h with h1 h2 h3 h4 <;> simp_all

theorem table_all {cls : String}
    (h : cls = "BayesianOptimization" ∨ cls = "RandomSearch" ∨ cls = "IFBO" ∨ cls ∈ halvingClasses) :
    ∃ c, chainOf cls = some c ∧ tableOk cls c = true := by
  simp only [halvingClasses, List.mem_cons, List.not_mem_nil, or_false] at h
  rcases h with rfl | rfl | rfl | rfl | rfl | rfl | rfl | rfl | rfl | rfl | rfl | rfl | rfl <;>
    exact ⟨_, rfl, by decide +kernel⟩

/-! ## The settings -/

/-- **C140 (settings)**: an optimizer that was built has every setting that was given, and the
default for the others. -/
theorem C140_settings_partial {ctx : Ctx} {b : Built} {o : Made} (h : Gives ctx b o) {k a : String}
    (hk : (k, a) ∈ shownSettings b.cls) : o.attr a = some (b.setting k) := by
  obtain ⟨c, hc, ht⟩ := table_all (shown_classes hk)
  exact attr_of_table hc ht h hk

/-- The signature has these defaults. -/
def DefaultsOk (s : Sig) : Dict Py → Prop
  | [] => True
  | (k, v) :: d => k ≠ "budget" ∧ s.optional.get? k = some v ∧ DefaultsOk s d

theorem DefaultsOk.get {s : Sig} {d : Dict Py} (h : DefaultsOk s d) {k : String} {v : Py}
    (hk : (k, v) ∈ d) : k ≠ "budget" ∧ s.optional.get? k = some v := by
  induction d with
  | nil => simp at hk
  | cons q d ih =>
    obtain ⟨k', v'⟩ := q
    rcases List.mem_cons.mp hk with hk | hk
    · simp only [Prod.mk.injEq] at hk
      obtain ⟨rfl, rfl⟩ := hk
      exact ⟨h.1, h.2.1⟩
    · exact ih h.2.2 hk

theorem defaults_ok {cls : String} {c : Chain} (h : chainOf cls = some c) :
    (cls ∈ halvingClasses → DefaultsOk c.sig (halvingDefault cls)) ∧
    (cls ∈ ["BayesianOptimization", "RandomSearch", "IFBO"] →
      DefaultsOk c.sig (flatDefault cls)) := by
  constructor
  · intro hc
    simp only [halvingClasses, List.mem_cons, List.not_mem_nil, or_false] at hc
    rcases hc with rfl | rfl | rfl | rfl | rfl | rfl | rfl | rfl | rfl | rfl <;>
      simp only [chainOf, Option.some.injEq] at h <;> subst h <;> repeat' constructor
    all_goals trivial
  · intro hc
    simp only [List.mem_cons, List.not_mem_nil, or_false] at hc
    rcases hc with rfl | rfl | rfl <;>
      simp only [chainOf, Option.some.injEq] at h <;> subst h <;> repeat' constructor
    all_goals trivial

/-- **C140 (defaults)**: a setting that is not given has its documented default. -/
theorem C140_defaults {ctx : Ctx} {b : Built} {o : Made} (h : Gives ctx b o) {k a : String} {v : Py}
    (hk : (k, a) ∈ shownSettings b.cls) (hn : b.kwargs.get? k = none)
    (hv : b.cls ∈ halvingClasses ∧ (k, v) ∈ halvingDefault b.cls ∨
      b.cls ∈ ["BayesianOptimization", "RandomSearch", "IFBO"] ∧ (k, v) ∈ flatDefault b.cls) :
    o.attr a = some v := by
  obtain ⟨c, hc, _⟩ := table_all (shown_classes hk)
  rw [C140_settings_partial h hk]
  unfold Built.setting
  obtain ⟨hd1, hd2⟩ := defaults_ok hc
  have : k ≠ "budget" ∧ c.sig.optional.get? k = some v := by
    rcases hv with ⟨h1, h2⟩ | ⟨h1, h2⟩
    · exact (hd1 h1).get h2
    · exact (hd2 h1).get h2
  rw [if_neg this.1, hn, hc]
  simp [this.2]

/-- The attribute that shows a setting in the file of a searcher. -/
def attrName (cls k : String) : String :=
  if k = "initial_design_size" ∧ cls ∈ ["BayesianOptimization", "IFBO"] then "n_initial_design"
  else k

/-- All settings in the file of a searcher are settings of its class. -/
def fileTable (name cls : String) : Bool :=
  match defaultSearchers.get? name with
  | none => false
  | some file => file.keys.all fun k =>
      decide (k ∈ ["strategy", "algorithm", "name"]) || decide (k ∈ modelSettings) ||
      (decide ((k, attrName cls k) ∈ shownSettings cls) &&
        decide (k ∉ "budget" :: ["loss_value_on_error", "cost_value_on_error", "ignore_errors"]))

theorem fileTable_ok : ∀ q ∈ packageSearchers, fileTable q.1 q.2 = true := by decide +kernel

/-- **C140 (by name)**: a searcher of the package that is chosen by its name has, for every setting
listed in its file, the value the user gave, or else the value in the file; except for the settings of
the model. -/
theorem C140_named_partial {env : Env} {ctx : Ctx} {a : RunArgs} {b : Built} {o : Made}
    {name cls : String} {space : SearchSpace} {file : Dict Py}
    (hk : a.kwargs.keys.Nodup) (h : (name, cls) ∈ packageSearchers) (hs : a.searcher = .str name)
    (hsp : spaceArg env a.space = some space) (h1 : a.kwargs.get? "pipeline_space" = none)
    (h2 : a.kwargs.get? "budget" = none) (hb : runArgs env a = some b) (ho : Gives ctx b o)
    (hf : defaultSearchers.get? name = some file) {k : String} {v : Py}
    (hv : fileArg file k = some v) (hm : k ∉ modelSettings) :
    o.attr (attrName cls k) = some ((a.kwargs.get? k).getD v) := by
  obtain ⟨b', file', e1, e2, e3, e4, e5, e6, e7, e8⟩ := C38_named hk h hs hsp h1 h2
  rw [hb, Option.some.injEq] at e1
  subst e1
  rw [hf, Option.some.injEq] at e2
  subst e2
  have ht := fileTable_ok _ h
  simp only [fileTable, hf, List.all_eq_true] at ht
  have hv' := hv
  unfold fileArg at hv'
  split_ifs at hv' with hst
  have hkf : k ∈ file.keys := Dict.mem_keys_iff.mpr ⟨v, hv'⟩
  have := ht k hkf
  simp only [Bool.or_eq_true, Bool.and_eq_true, decide_eq_true_eq] at this
  rcases this with (this | this) | ⟨this, hne⟩
  · simp only [List.mem_cons, List.not_mem_nil, or_false] at this
    exact absurd this hst
  · exact absurd this hm
  · rw [← e3] at this ⊢
    rw [C140_settings_partial ho this]
    simp only [List.mem_cons, List.not_mem_nil, or_false, not_or] at hne
    unfold Built.setting
    rw [if_neg hne.1, e8 k, hv]
    have : errorSetting a k = none := by
      unfold errorSetting
      rw [if_neg hne.2.1, if_neg hne.2.2.1, if_neg hne.2.2.2]
    rw [this]
    cases a.kwargs.get? k <;> simp

/-- **C140 (what the run says)**: the optimizers based on successive halving know the limit on the
cost and what to do about errors. -/
theorem C140_run_settings_partial {env : Env} {ctx : Ctx} {a : RunArgs} {b : Built} {o : Made}
    (hk : a.kwargs.keys.Nodup) (hb : runArgs env a = some b) (hc : b.cls ∈ halvingClasses)
    (ho : Gives ctx b o) :
    o.attr "budget" = some a.maxCost ∧ o.attr "loss_value_on_error" = some a.lossOnError ∧
    o.attr "cost_value_on_error" = some a.costOnError ∧
    o.attr "ignore_errors" = some a.ignoreErrors := by
  have hmem : ∀ k ∈ toldSettings, (k, k) ∈ shownSettings b.cls := by
    intro k hk
    revert k
    simp only [halvingClasses, List.mem_cons, List.not_mem_nil, or_false] at hc
    rcases hc with h | h | h | h | h | h | h | h | h | h <;> rw [h] <;> decide +kernel
  obtain ⟨_, _, _, _, _, _, _, _, _, hbud, _⟩ := runArgs_spec hk hb
  obtain ⟨e1, e2, e3⟩ := C38_error_settings hk hb
  refine ⟨?_, ?_, ?_, ?_⟩
  · rw [C140_settings_partial ho (hmem "budget" (by decide))]
    simp [Built.setting, hbud]
  · rw [C140_settings_partial ho (hmem "loss_value_on_error" (by decide))]
    simp [Built.setting, e1]
  · rw [C140_settings_partial ho (hmem "cost_value_on_error" (by decide))]
    simp [Built.setting, e2]
  · rw [C140_settings_partial ho (hmem "ignore_errors" (by decide))]
    simp [Built.setting, e3]

/-! ## Which calls succeed -/

/-- The lemmas about a class based on successive halving. -/
structure ClassInfo (cls : String) (c : Chain) : Prop where
  chain : chainOf cls = some c
  halving : Halving c (fun ctx v => PoliciesOk ctx cls v)
  rest : c.sig.rest = false
  required : ∀ k ∈ c.sig.required, k = "budget"
  budget : "budget" ∈ c.sig.names
  args : (("model_policy" :: checkedSettings).all fun p =>
    fromArg c p p || (p == "use_priors" && decide (cls ∈ priorClasses)) ||
      (p == "early_stopping_rate" && decide (cls ∈ bracketClasses)) ||
      (p == "model_policy" && decide (cls ∉ ["PriorBand", "PriorBandAsha", "PriorBandAshaHB",
        "MOBSTER"]))) = true
  prior : cls ∈ priorClasses → ∀ kw, shown c kw "use_priors" = .bool true
  rate : cls ∈ bracketClasses → ∀ kw, shown c kw "early_stopping_rate" = .int 0

theorem classInfo {cls : String} (h : cls ∈ halvingClasses) : ∃ c, ClassInfo cls c := by
  have triv : ∀ cls ∉ ["PriorBand", "PriorBandAsha", "PriorBandAshaHB", "MOBSTER"],
      ∀ (ctx : Ctx) (v : String → Py), PoliciesOk ctx cls v ↔ True := by
    intro cls hc ctx v
    simp only [List.mem_cons, List.not_mem_nil, or_false, not_or] at hc
    simp [PoliciesOk, hc]
  have ens : ∀ cls ∈ ["PriorBand", "PriorBandAsha", "PriorBandAshaHB"],
      ∀ (ctx : Ctx) (v : String → Py), PoliciesOk ctx cls v ↔ EnsembleOk ctx v := by
    intro cls hc ctx v
    have hc' : cls ∈ ["PriorBand", "PriorBandAsha", "PriorBandAshaHB", "MOBSTER"] := by
      simp only [List.mem_cons, List.not_mem_nil, or_false] at hc ⊢
      tauto
    simp only [PoliciesOk, hc, hc', true_implies, EnsembleOk, ModelOk]
  have mob : ∀ (ctx : Ctx) (v : String → Py), PoliciesOk ctx "MOBSTER" v ↔ ModelOk ctx v := by
    intro ctx v
    simp [PoliciesOk, ModelOk]
  simp only [halvingClasses, List.mem_cons, List.not_mem_nil, or_false] at h
  rcases h with rfl | rfl | rfl | rfl | rfl | rfl | rfl | rfl | rfl | rfl
  · exact ⟨_, rfl, Halving.sh.congr fun ctx kw => (triv _ (by decide) _ _).symm, by decide +kernel,
      by decide +kernel, by decide +kernel, by decide +kernel, fun h => absurd h (by decide),
      fun h => absurd h (by decide)⟩
  · exact ⟨_, rfl, Halving.shPrior.congr fun ctx kw => (triv _ (by decide) _ _).symm,
      by decide +kernel, by decide +kernel, by decide +kernel, by decide +kernel, fun _ kw => rfl,
      fun h => absurd h (by decide)⟩
  · exact ⟨_, rfl, Halving.asha.congr fun ctx kw => (triv _ (by decide) _ _).symm,
      by decide +kernel, by decide +kernel, by decide +kernel, by decide +kernel,
      fun h => absurd h (by decide), fun h => absurd h (by decide)⟩
  · exact ⟨_, rfl, Halving.ashaPrior.congr fun ctx kw => (triv _ (by decide) _ _).symm,
      by decide +kernel, by decide +kernel, by decide +kernel, by decide +kernel, fun _ kw => rfl,
      fun h => absurd h (by decide)⟩
  · exact ⟨_, rfl, Halving.hb.congr fun ctx kw => (triv _ (by decide) _ _).symm,
      by decide +kernel, by decide +kernel, by decide +kernel, by decide +kernel,
      fun h => absurd h (by decide), fun _ kw => rfl⟩
  · exact ⟨_, rfl, Halving.hbCustom.congr fun ctx kw => (triv _ (by decide) _ _).symm,
      by decide +kernel, by decide +kernel, by decide +kernel, by decide +kernel,
      fun _ kw => rfl, fun _ kw => rfl⟩
  · exact ⟨_, rfl, Halving.priorband.congr fun ctx kw => (ens _ (by decide) _ _).symm,
      by decide +kernel, by decide +kernel, by decide +kernel, by decide +kernel,
      fun _ kw => rfl, fun _ kw => rfl⟩
  · exact ⟨_, rfl, Halving.pbAsha.congr fun ctx kw => (ens _ (by decide) _ _).symm,
      by decide +kernel, by decide +kernel, by decide +kernel, by decide +kernel,
      fun _ kw => rfl, fun h => absurd h (by decide)⟩
  · exact ⟨_, rfl, Halving.pbAshaHb.congr fun ctx kw => (ens _ (by decide) _ _).symm,
      by decide +kernel, by decide +kernel, by decide +kernel, by decide +kernel,
      fun _ kw => rfl, fun _ kw => rfl⟩
  · exact ⟨_, rfl, Halving.mobster.congr fun ctx kw => (mob _ _).symm,
      by decide +kernel, by decide +kernel, by decide +kernel, by decide +kernel,
      fun h => absurd h (by decide), fun _ kw => rfl⟩

theorem ClassInfo.shown_chosen {b : Built} {c : Chain} (i : ClassInfo b.cls c) {p : String}
    (hp : p ∈ checkedSettings ∨ (p = "model_policy" ∧
      b.cls ∈ ["PriorBand", "PriorBandAsha", "PriorBandAshaHB", "MOBSTER"])) :
    shown c (("budget", b.budget) :: b.kwargs) p = b.chosen p := by
  have h := i.args
  rw [List.all_eq_true] at h
  have h := h p (by
    rcases hp with hp | hp
    · exact List.mem_cons_of_mem _ hp
    · simp [hp.1])
  unfold Built.chosen
  by_cases h1 : p = "use_priors" ∧ b.cls ∈ priorClasses
  · rw [if_pos h1, h1.1, i.prior h1.2]
  · rw [if_neg h1]
    by_cases h2 : p = "early_stopping_rate" ∧ b.cls ∈ bracketClasses
    · rw [if_pos h2, h2.1, i.rate h2.2]
    · rw [if_neg h2]
      simp only [Bool.or_eq_true, Bool.and_eq_true, beq_iff_eq, decide_eq_true_eq] at h
      rcases h with ((h | h) | h) | h
      · rw [shown_eq h, value_call i.chain]
      · exact absurd h h1
      · exact absurd h h2
      · rcases hp with hp | hp
        · rw [h.1] at hp
          exact absurd hp (by decide)
        · exact absurd hp.2 h.2

theorem ClassInfo.fits {b : Built} {c : Chain} (i : ClassInfo b.cls c) :
    c.sig.fits (("budget", b.budget) :: b.kwargs) = true ↔ b.NamesOk := by
  unfold Sig.fits Built.NamesOk parametersOf
  rw [i.chain, i.rest]
  simp only [Bool.false_or, Bool.and_eq_true, List.all_eq_true, decide_eq_true_eq, Dict.keys,
    List.map_cons, List.mem_cons, Option.map_some, Option.getD_some]
  constructor
  · rintro ⟨h, _⟩ k hk
    exact h k (.inr hk)
  · intro h
    refine ⟨?_, fun k hk => .inl (i.required k hk)⟩
    rintro k (rfl | hk)
    · exact i.budget
    · exact h k hk

/-- The call of a class based on successive halving. -/
theorem halving_call {ctx : Ctx} {b : Built} (hc : b.cls ∈ halvingClasses) (s' : SearchSpace) :
    (∃ o, Gives ctx b o ∧ o.space = s') ↔ b.NamesOk ∧ HalvingOk ctx b.space b.chosen ∧
      b.space.enhance (b.chosen "use_priors").truthy (b.chosen "prior_confidence").confidence =
        some s' ∧ PoliciesOk ctx b.cls b.chosen := by
  obtain ⟨c, i⟩ := classInfo hc
  have hsh : ∀ p ∈ checkedSettings, shown c (("budget", b.budget) :: b.kwargs) p = b.chosen p :=
    fun p hp => i.shown_chosen (.inl hp)
  have hpol : PoliciesOk ctx b.cls (shown c (("budget", b.budget) :: b.kwargs)) ↔
      PoliciesOk ctx b.cls b.chosen := by
    unfold PoliciesOk
    rw [hsh "sampling_policy" (by decide)]
    by_cases hm : b.cls ∈ ["PriorBand", "PriorBandAsha", "PriorBandAshaHB", "MOBSTER"]
    · rw [i.shown_chosen (.inr ⟨rfl, hm⟩)]
    · simp only [hm, false_implies]
  simp only [gives_iff i.chain]
  rw [i.halving ctx b.space (("budget", b.budget) :: b.kwargs) s', i.fits]
  beta_reduce
  rw [hpol,
    hsh "use_priors" (by decide), hsh "prior_confidence" (by decide)]
  constructor
  · rintro ⟨h1, h2, h3⟩
    exact ⟨h1, h2.congr fun p hp => (hsh p hp).symm, h3⟩
  · rintro ⟨h1, h2, h3⟩
    exact ⟨h1, h2.congr hsh, h3⟩

/-- **C140 (accepted)**: an optimizer based on successive halving can be built exactly if every given
setting is one of its parameters and the values are valid. -/
theorem C140_accepted {ctx : Ctx} {b : Built} (hc : b.cls ∈ halvingClasses) :
    (∃ o, Gives ctx b o) ↔
      b.NamesOk ∧ HalvingOk ctx b.space b.chosen ∧ PoliciesOk ctx b.cls b.chosen := by
  constructor
  · rintro ⟨o, ho⟩
    obtain ⟨h1, h2, _, h4⟩ := (halving_call hc o.space).mp ⟨o, ho, rfl⟩
    exact ⟨h1, h2, h4⟩
  · rintro ⟨h1, h2, h3⟩
    obtain ⟨s', hs'⟩ := h2.confidence
    obtain ⟨o, ho, _⟩ := (halving_call hc s').mpr ⟨h1, h2, hs', h3⟩
    exact ⟨o, ho⟩

/-- **C140 (space)**: the space of an optimizer based on successive halving is the given one, with
the confidence in the defaults that was chosen; building the brackets does not change it again. -/
theorem C140_space {ctx : Ctx} {b : Built} {o : Made} (hc : b.cls ∈ halvingClasses)
    (ho : Gives ctx b o) :
    b.space.enhance (b.chosen "use_priors").truthy (b.chosen "prior_confidence").confidence =
      some o.space :=
  ((halving_call hc o.space).mp ⟨o, ho, rfl⟩).2.2.1

/-- A class directly below the base class that passes nothing on. -/
theorem flat_call {ctx : Ctx} {l : Level} (hp : l.pass = []) (hbr : l.brackets = none)
    (s s' : SearchSpace) (kw : Dict Py) :
    (∃ o, construct ctx [l, baseLevel] s kw = .ok o ∧ o.space = s') ↔
      l.sig.fits kw = true ∧ l.body ctx s (l.sig.value kw) = .ok s' := by
  obtain ⟨d, hd⟩ := base_plain (ctx := ctx) (s := s) (kw := []) (by decide +kernel) rfl
  have hb : construct ctx [baseLevel] s [] = .ok ⟨s, d, []⟩ := by
    rw [construct_plain (by simp [baseLevel]), hd]
    rfl
  unfold construct
  have he : evalAll l.sig kw l.pass = [] := by rw [hp]; rfl
  rw [he, hb, hbr]
  split_ifs with h
  · simp only [h, true_and]
    cases l.body ctx s (l.sig.value kw) <;> simp
  · simp [h]

theorem flat_fits {b : Built} {l : Level} {ls : Chain} (hch : chainOf b.cls = some (l :: ls))
    (h1 : l.sig.rest = false) (h2 : l.sig.required = []) (h3 : "budget" ∈ l.sig.names) :
    l.sig.fits (("budget", b.budget) :: b.kwargs) = true ↔ b.NamesOk := by
  unfold Sig.fits Built.NamesOk parametersOf
  rw [hch, h1, h2]
  simp only [Bool.false_or, List.all_nil, Bool.and_true, List.all_eq_true, decide_eq_true_eq,
    Dict.keys, List.map_cons, List.mem_cons, Option.map_some, Option.getD_some, Chain.sig]
  constructor
  · intro h k hk
    exact h k (.inr hk)
  · rintro h k (rfl | hk)
    · exact h3
    · exact h k hk

/-- **C140 (other classes)**: random search can be built for every space unless a seed is given, and
its space is the given one. -/
theorem C140_random_search {ctx : Ctx} {b : Built} (hc : b.cls = "RandomSearch") (s' : SearchSpace) :
    (∃ o, Gives ctx b o ∧ o.space = s') ↔ b.setting "seed" = .null ∧ s' = b.space := by
  have hch : chainOf b.cls = some [randomLevel, baseLevel] := by rw [hc]; rfl
  have hv := value_call hch "seed"
  have hfit : ∀ kw, randomLevel.sig.fits kw = true := by intro kw; simp [Sig.fits, randomLevel]
  simp only [gives_iff hch]
  rw [flat_call rfl rfl, and_iff_right (hfit _), ← hv]
  have : ∀ v : String → Py, randomLevel.body ctx b.space v =
      if (v "seed").isNull then .ok b.space else .error .notImplementedError := fun _ => rfl
  rw [this]
  simp only [Chain.sig]
  cases randomLevel.sig.value (("budget", b.budget) :: b.kwargs) "seed" <;>
    simp [Py.isNull, eq_comm]

/-- **C140 (other classes)**: Bayesian optimization can be built exactly if every given setting is
one of its parameters, no seed is given and the space has no fidelity; its space is the given
one. -/
theorem C140_bayesian_optimization {ctx : Ctx} {b : Built} (hc : b.cls = "BayesianOptimization")
    (s' : SearchSpace) :
    (∃ o, Gives ctx b o ∧ o.space = s') ↔
      b.NamesOk ∧ b.setting "seed" = .null ∧ b.space.fidelity = none ∧ s' = b.space := by
  have hch : chainOf b.cls = some [boLevel, baseLevel] := by rw [hc]; rfl
  have hv := value_call hch "seed"
  simp only [gives_iff hch]
  rw [flat_call rfl rfl, flat_fits hch rfl rfl (by decide +kernel), ← hv]
  have : ∀ v : String → Py, boLevel.body ctx b.space v =
      if ¬ (v "seed").isNull then .error .notImplementedError
      else if b.space.fidelity.isSome then .error .valueError
      else .ok b.space := fun _ => rfl
  rw [this]
  simp only [Chain.sig]
  cases boLevel.sig.value (("budget", b.budget) :: b.kwargs) "seed" <;>
    cases b.space.fidelity <;> simp [Py.isNull, eq_comm]

/-- **C140 (other classes)**: ifBO can be built exactly if every given setting is one of its
parameters, the space has a fidelity and the step size fits it. -/
theorem C140_ifbo {ctx : Ctx} {b : Built} (hc : b.cls = "IFBO") (s' : SearchSpace) :
    (∃ o, Gives ctx b o ∧ o.space = s') ↔ b.NamesOk ∧ b.space.fidelity ≠ none ∧
      ctx.adjust b.space (b.setting "step_size") = some s' := by
  have hch : chainOf b.cls = some [ifboLevel, baseLevel] := by rw [hc]; rfl
  have hv := value_call hch "step_size"
  simp only [gives_iff hch]
  rw [flat_call rfl rfl, flat_fits hch rfl rfl (by decide +kernel), ← hv]
  have : ∀ v : String → Py, ifboLevel.body ctx b.space v =
      if b.space.fidelity.isNone then .error .assertionError
      else match ctx.adjust b.space (v "step_size") with
        | some s => .ok s
        | none => .error .valueError := fun _ => rfl
  rw [this]
  simp only [Chain.sig]
  cases ctx.adjust b.space
      (ifboLevel.sig.value (("budget", b.budget) :: b.kwargs) "step_size") <;>
    cases b.space.fidelity <;> simp

/-- **C140 (unknown settings)**: a setting that is not a parameter of the class is an error, except
for random search. -/
theorem C140_unknown_partial {ctx : Ctx} {b : Built} (hc : b.cls ≠ "RandomSearch")
    (hm : (chainOf b.cls).isSome) {k : String} (hk : k ∈ b.kwargs.keys)
    (hn : k ∉ parametersOf b.cls) : Raises ctx b .typeError := by
  obtain ⟨c, hch⟩ := Option.isSome_iff_exists.mp hm
  have hrest : c.sig.rest = false := by
    unfold chainOf at hch
    split at hch <;> simp only [Option.some.injEq, reduceCtorEq] at hch <;> subst hch <;>
      first | rfl | (rename_i h; exact absurd h hc)
  have hnf : c.sig.fits (("budget", b.budget) :: b.kwargs) = false := by
    rw [← Bool.not_eq_true]
    intro h
    simp only [Sig.fits, hrest, Bool.false_or, Bool.and_eq_true, List.all_eq_true,
      decide_eq_true_eq] at h
    apply hn
    unfold parametersOf
    rw [hch]
    exact h.1 k (by simp only [Dict.keys, List.map_cons, List.mem_cons]; exact .inr hk)
  unfold Raises Built.make
  rw [hch]
  cases c with
  | nil => simp [Chain.sig] at hrest
  | cons l ls =>
    simp only [Option.map_some, construct, Option.some.injEq]
    rw [if_neg (by simpa [Chain.sig] using hnf)]

/-! ## The brackets -/

/-- The lemmas about a class with brackets. -/
structure BracketInfo (cls : String) (c : Chain) : Prop where
  chain : chainOf cls = some c
  counted : Counted c
  eta : fromArg c "eta" "eta" = true
  rate : (match bracketOrigin c "early_stopping_rate" with | some .rate => true | _ => false) = true
  args : ((halvingSettings ++ toldSettings).all fun k => bracketArg c k k) = true
  prior : ∀ kw i, (bracketOrigin c "use_priors").map (BracketSrc.val c.sig kw i) =
    some (if cls ∈ priorClasses then .bool true else c.sig.value kw "use_priors")
  model : cls ∈ ["PriorBand", "PriorBandAshaHB", "MOBSTER"] →
    bracketArg c "model_policy" "model_policy" = true
  inc : cls ∈ ["PriorBand", "PriorBandAshaHB"] →
    bracketArg c "sampling_policy.inc_type" "inc_sample_type" = true

theorem bracketInfo {cls : String} (h : cls ∈ bracketClasses) : ∃ c, BracketInfo cls c := by
  simp only [bracketClasses, List.mem_cons, List.not_mem_nil, or_false] at h
  rcases h with rfl | rfl | rfl | rfl | rfl
  · exact ⟨_, rfl, Counted.hb, by decide +kernel, by decide +kernel, by decide +kernel,
      fun kw i => rfl, fun h => absurd h (by decide), fun h => absurd h (by decide)⟩
  · exact ⟨_, rfl, Counted.hbCustom, by decide +kernel, by decide +kernel, by decide +kernel,
      fun kw i => rfl, fun h => absurd h (by decide), fun h => absurd h (by decide)⟩
  · exact ⟨_, rfl, Counted.priorband, by decide +kernel, by decide +kernel, by decide +kernel,
      fun kw i => rfl, fun _ => by decide +kernel, fun _ => by decide +kernel⟩
  · exact ⟨_, rfl, Counted.pbAshaHb, by decide +kernel, by decide +kernel, by decide +kernel,
      fun kw i => rfl, fun _ => by decide +kernel, fun _ => by decide +kernel⟩
  · exact ⟨_, rfl, Counted.mobster, by decide +kernel, by decide +kernel, by decide +kernel,
      fun kw i => rfl, fun _ => by decide +kernel, fun h => absurd h (by decide)⟩

/-- **C140 (brackets)**: an optimizer with brackets has one for every stopping rate up to the limit of
the space.  Every bracket has its own rate and otherwise the settings of the optimizer. -/
theorem C140_brackets {ctx : Ctx} {b : Built} {o : Made} (hc : b.cls ∈ bracketClasses)
    (ho : Gives ctx b o) :
    (∃ limit : ℕ, ctx.limitOf b.space (b.setting "eta") = some (limit : ℤ) ∧
      o.brackets.length = limit + 1) ∧
    ∀ (i : ℕ) (br : Dict Py), o.brackets[i]? = some br →
      br.get? "early_stopping_rate" = some (.int i) ∧
      br.get? "use_priors" = some (b.chosen "use_priors") ∧
      (∀ k ∈ halvingSettings ++ toldSettings, br.get? k = some (b.setting k)) ∧
      (b.cls ∈ ["PriorBand", "PriorBandAshaHB", "MOBSTER"] →
        br.get? "model_policy" = some (b.setting "model_policy")) ∧
      (b.cls ∈ ["PriorBand", "PriorBandAshaHB"] →
        br.get? "sampling_policy.inc_type" = some (b.setting "inc_sample_type")) := by
  obtain ⟨c, i⟩ := bracketInfo hc
  have hh : b.cls ∈ halvingClasses := by
    have : ∀ cls ∈ bracketClasses, cls ∈ halvingClasses := by decide
    exact this _ hc
  have ho' := (gives_iff i.chain).mp ho
  constructor
  · obtain ⟨_, hok, _⟩ := (C140_accepted hh).mp ⟨o, ho⟩
    obtain ⟨limit, r, hl, hr, hle⟩ := hok.rate
    have hrate : b.chosen "early_stopping_rate" = .int 0 := by
      unfold Built.chosen
      rw [if_neg (by simp), if_pos ⟨rfl, hc⟩]
    have heta : b.chosen "eta" = b.setting "eta" := by
      unfold Built.chosen
      rw [if_neg (by simp), if_neg (by simp)]
    rw [hrate] at hr
    simp only [Py.asNumber, Int.cast_zero, Option.some.injEq] at hr
    subst hr
    rw [heta] at hl
    have h0 : 0 ≤ limit := by exact_mod_cast hle
    refine ⟨limit.toNat, by rw [hl, Int.toNat_of_nonneg h0], ?_⟩
    have := i.counted ctx b.space _ o ho'
    rw [shown_eq i.eta, value_call i.chain, hl] at this
    simp only [Option.getD_some] at this
    omega
  · intro n br hbr
    have harg : ∀ a p, bracketArg c a p = true → br.get? a = some (b.setting p) := by
      intro a p h
      rw [bracket_attr ho' (bracketArg_iff h) hbr, ← value_call i.chain]
      rfl
    refine ⟨?_, ?_, fun k hk => ?_, fun h => harg _ _ (i.model h), fun h => harg _ _ (i.inc h)⟩
    · have := i.rate
      split at this
      · rename_i h
        rw [bracket_attr ho' h hbr]
        rfl
      · simp at this
    · have h := i.prior (("budget", b.budget) :: b.kwargs) n
      rw [Option.map_eq_some_iff] at h
      obtain ⟨src, h1, h2⟩ := h
      rw [bracket_attr ho' h1 hbr, h2, value_call i.chain]
      unfold Built.chosen
      by_cases hp : b.cls ∈ priorClasses
      · rw [if_pos hp, if_pos ⟨rfl, hp⟩]
      · rw [if_neg hp, if_neg fun h => hp h.2, if_neg (by simp)]
    · have := i.args
      rw [List.all_eq_true] at this
      exact harg _ _ (this k hk)

/-! ## By name -/

/-- All settings in the file of a searcher and those of the run are parameters of the class. -/
noncomputable def fileFits (name cls : String) : Bool :=
  match defaultSearchers.get? name with
  | none => false
  | some file => (file.keys ++ ["loss_value_on_error", "cost_value_on_error", "ignore_errors"]).all
      fun k => decide (k ∈ ["strategy", "algorithm", "name"]) || decide (k ∈ parametersOf cls)

theorem fileFits_ok : ∀ q ∈ packageSearchers, q.2 ≠ "RandomSearch" → fileFits q.1 q.2 = true := by
  decide +kernel

/-- **C140 (by name)**: nothing in the files of the package is refused: a searcher chosen by its name
gets only parameters of its class exactly if the user's settings are such. -/
theorem C140_named_names {env : Env} {a : RunArgs} {b : Built} {name cls : String}
    {space : SearchSpace} (hk : a.kwargs.keys.Nodup) (h : (name, cls) ∈ packageSearchers)
    (hs : a.searcher = .str name) (hsp : spaceArg env a.space = some space)
    (h1 : a.kwargs.get? "pipeline_space" = none) (h2 : a.kwargs.get? "budget" = none)
    (hb : runArgs env a = some b) (hr : cls ≠ "RandomSearch") :
    b.NamesOk ↔ ∀ k ∈ a.kwargs.keys, k ∈ parametersOf cls := by
  obtain ⟨b', file, e1, e2, e3, e4, e5, e6, e7, e8⟩ := C38_named hk h hs hsp h1 h2
  rw [hb, Option.some.injEq] at e1
  subst e1
  have ht := fileFits_ok _ h hr
  simp only [fileFits, e2, List.all_eq_true, Bool.or_eq_true, decide_eq_true_eq] at ht
  have hkeys : ∀ k, k ∈ b.kwargs.keys ↔ (∃ v, errorSetting a k = some v) ∨
      k ∈ a.kwargs.keys ∨ ∃ v, fileArg file k = some v := by
    intro k
    rw [Dict.mem_keys_iff, Dict.mem_keys_iff, e8]
    cases errorSetting a k <;> cases a.kwargs.get? k <;> cases fileArg file k <;> simp
  unfold Built.NamesOk
  rw [e3]
  constructor
  · intro hn k hkk
    exact hn k ((hkeys k).mpr (.inr (.inl hkk)))
  · intro hn k hkk
    rcases (hkeys k).mp hkk with ⟨v, hv⟩ | hkk | ⟨v, hv⟩
    · have hm : k ∈ ["loss_value_on_error", "cost_value_on_error", "ignore_errors"] := by
        unfold errorSetting at hv
        split_ifs at hv <;> simp_all
      have := ht k (List.mem_append_right _ hm)
      rcases this with h | h
      · exfalso
        revert h
        simp only [List.mem_cons, List.not_mem_nil, or_false] at hm
        rcases hm with rfl | rfl | rfl <;> decide
      · exact h
    · exact hn k hkk
    · unfold fileArg at hv
      split_ifs at hv with hst
      have := ht k (List.mem_append_left _ (Dict.mem_keys_iff.mpr ⟨v, hv⟩))
      rcases this with h | h
      · simp only [List.mem_cons, List.not_mem_nil, or_false] at h
        exact absurd h hst
      · exact h

/-! ## What does not work -/

/-- **C140 fails for random search**: a misspelled setting is accepted silently, and changes
nothing. -/
theorem C140_unknown_fails : ∃ b k, b.cls = "RandomSearch" ∧ k ∈ b.kwargs.keys ∧
    k ∉ parametersOf b.cls ∧
    ∀ ctx, (∃ o, Gives ctx b o) ∧ Built.make ctx b = Built.make ctx { b with kwargs := [] } := by
  refine ⟨⟨"RandomSearch", demoSpace, .null, [("ignore_fidelty", .bool false)], .null, .null, "",
    false, []⟩, "ignore_fidelty", rfl, by simp [Dict.keys], by decide +kernel, fun ctx => ?_⟩
  obtain ⟨o, ho, _⟩ := (C140_random_search (ctx := ctx) (b := ⟨"RandomSearch", demoSpace, .null,
    [("ignore_fidelty", .bool false)], .null, .null, "", false, []⟩) rfl demoSpace).mpr
    ⟨rfl, rfl⟩
  exact ⟨⟨o, ho⟩, rfl⟩

theorem attr_const {ctx : Ctx} {b : Built} {o : Made} {c : Chain} (hc : chainOf b.cls = some c)
    (h : Gives ctx b o) {a : String} {v : Py} (ho : ∀ kw, (origin c a).map (Src.val c.sig kw) = some v) :
    o.attr a = some v := by
  have ho := ho (("budget", b.budget) :: b.kwargs)
  rw [Option.map_eq_some_iff] at ho
  obtain ⟨src, h1, h2⟩ := ho
  unfold Made.attr
  rw [construct_attr ((gives_iff hc).mp h) h1, h2]

/-- **C140 fails for random search, Bayesian optimization and ifBO**: whatever the user says about
errors and about the cost, the optimizer has no value for a loss or a cost after an error, does not
ignore errors and knows no limit. -/
theorem C140_errors_fails {ctx : Ctx} {b : Built} {o : Made}
    (hc : b.cls ∈ ["RandomSearch", "BayesianOptimization", "IFBO"]) (ho : Gives ctx b o) :
    o.attr "budget" = some .null ∧ o.attr "loss_value_on_error" = some .null ∧
    o.attr "cost_value_on_error" = some .null ∧ o.attr "ignore_errors" = some (.bool false) := by
  have key : ∃ c, chainOf b.cls = some c ∧
      (∀ kw, (origin c "budget").map (Src.val c.sig kw) = some .null) ∧
      (∀ kw, (origin c "loss_value_on_error").map (Src.val c.sig kw) = some .null) ∧
      (∀ kw, (origin c "cost_value_on_error").map (Src.val c.sig kw) = some .null) ∧
      (∀ kw, (origin c "ignore_errors").map (Src.val c.sig kw) = some (.bool false)) := by
    simp only [List.mem_cons, List.not_mem_nil, or_false] at hc
    rcases hc with h | h | h <;> rw [h] <;>
      exact ⟨_, rfl, fun _ => rfl, fun _ => rfl, fun _ => rfl, fun _ => rfl⟩
  obtain ⟨c, h, h1, h2, h3, h4⟩ := key
  exact ⟨attr_const h ho h1, attr_const h ho h2, attr_const h ho h3, attr_const h ho h4⟩

/-- **C140 fails for the settings of the model**: MOBSTER and PriorBand accept them, and the files of
`mobster` and `priorband_bo` offer them, but the optimizer is the same whatever they are. -/
theorem C140_model_settings_fails {ctx : Ctx} {b : Built} (hc : b.cls ∈ ["MOBSTER", "PriorBand"])
    {k : String} (hk : k ∈ modelSettings) (v : Py) :
    k ∈ parametersOf b.cls ∧
      Built.make ctx { b with kwargs := (k, v) :: b.kwargs } = Built.make ctx b := by
  have key : ∃ l ls, chainOf b.cls = some (l :: ls) ∧ l.brackets = none ∧ l.sig.rest = false ∧
      (modelSettings.all fun k => decide (k ∈ l.sig.names) && decide (k ∉ l.sig.required)) = true ∧
      ((l.pass ++ l.attrs ++ l.bracketAttrs).all fun q => match q.2 with
        | .arg p => decide (p ∉ modelSettings) | .const _ => true) = true ∧
      (∀ s (v w : String → Py), v "model_policy" = w "model_policy" →
        v "sampling_policy" = w "sampling_policy" → l.body ctx s v = l.body ctx s w) := by
    simp only [List.mem_cons, List.not_mem_nil, or_false] at hc
    rcases hc with h | h <;> rw [h]
    · refine ⟨mobsterLevel, _, rfl, rfl, rfl, by decide +kernel, by decide +kernel, ?_⟩
      intro s v w h1 h2
      simp only [mobsterLevel, h1]
    · refine ⟨priorbandLevel, _, rfl, rfl, rfl, by decide +kernel, by decide +kernel, ?_⟩
      intro s v w h1 h2
      simp only [priorbandLevel, h1, h2]
  obtain ⟨l, ls, hch, hbr, hrest, hnames, hsrc, hbody⟩ := key
  rw [List.all_eq_true] at hnames
  have hkn := hnames k hk
  simp only [Bool.and_eq_true, decide_eq_true_eq] at hkn
  refine ⟨by unfold parametersOf; rw [hch]; exact hkn.1, ?_⟩
  have hval : ∀ p, p ≠ k → l.sig.value (("budget", b.budget) :: (k, v) :: b.kwargs) p =
      l.sig.value (("budget", b.budget) :: b.kwargs) p := by
    intro p hp
    unfold Sig.value
    have hkp : ¬ k = p := fun h => hp h.symm
    simp only [Dict.get?_cons, if_neg hkp]
  have hev : ∀ d : Dict Src, (∀ q ∈ d, q ∈ l.pass ++ l.attrs ++ l.bracketAttrs) →
      evalAll l.sig (("budget", b.budget) :: (k, v) :: b.kwargs) d =
      evalAll l.sig (("budget", b.budget) :: b.kwargs) d := by
    intro d hd
    unfold evalAll
    refine List.map_congr_left fun q hq => ?_
    have := (List.all_eq_true.mp hsrc) q (hd q hq)
    cases hq2 : q.2 with
    | const v => rfl
    | arg p =>
      rw [hq2] at this
      simp only [decide_eq_true_eq] at this
      simp only [Src.val]
      rw [hval p fun h => this (h ▸ hk)]
  have hfits : l.sig.fits (("budget", b.budget) :: (k, v) :: b.kwargs) =
      l.sig.fits (("budget", b.budget) :: b.kwargs) := by
    rw [Bool.eq_iff_iff]
    simp only [Sig.fits, hrest, Bool.false_or, Bool.and_eq_true, List.all_eq_true,
      decide_eq_true_eq, Dict.keys, List.map_cons, List.mem_cons]
    constructor
    · rintro ⟨h1, h2⟩
      refine ⟨fun x hx => h1 x (by tauto), fun x hx => ?_⟩
      rcases h2 x hx with h | h | h
      · exact .inl h
      · rw [h] at hx
        exact absurd hx hkn.2
      · exact .inr h
    · rintro ⟨h1, h2⟩
      refine ⟨?_, fun x hx => ?_⟩
      · rintro x (h | h | h)
        · exact h1 x (.inl h)
        · rw [h]
          exact hkn.1
        · exact h1 x (.inr h)
      · rcases h2 x hx with h | h
        · exact .inl h
        · exact .inr (.inr h)
  unfold Built.make
  rw [hch]
  simp only [Option.map_some, Option.some.injEq]
  unfold construct
  rw [hfits, hev l.pass (fun q hq => by simp [hq]), hev l.attrs (fun q hq => by simp [hq]),
    hev l.bracketAttrs (fun q hq => by simp [hq]), hbr]
  have hb : ∀ s, l.body ctx s (l.sig.value (("budget", b.budget) :: (k, v) :: b.kwargs)) =
      l.body ctx s (l.sig.value (("budget", b.budget) :: b.kwargs)) := by
    intro s
    refine hbody s _ _ (hval _ ?_) (hval _ ?_) <;> rintro rfl <;> revert hk <;> decide
  simp only [hb]

/-- **C140 fails for grid search**: it cannot be built at all, because every class is called with a
budget and it has no such parameter. -/
theorem C140_grid_search_fails {ctx : Ctx} {b : Built} (hc : b.cls = "GridSearch") :
    Raises ctx b .typeError := by
  have hch : chainOf b.cls = some [gridLevel, baseLevel] := by rw [hc]; rfl
  unfold Raises Built.make
  rw [hch]
  simp only [Option.map_some, construct, Option.some.injEq]
  rw [if_neg]
  simp [Sig.fits, Sig.names, gridLevel, Dict.keys]

/-! ## The hypotheses can be met -/

/-- A context: four stopping rates for every space with a fidelity. -/
def demoCtx : Ctx := ⟨fun _ _ => some 3, fun s _ => some s, fun _ _ => false⟩

/-- PriorBand with two settings. -/
noncomputable def demoBuilt : Built :=
  ⟨"PriorBand", demoSpace, .int 100, [("eta", .int 4), ("inc_sample_type", .str "crossover")], .null,
    .null, "", false, []⟩

theorem demoSpace_fidelity : demoSpace.fidelity = some ("epochs", .int demoEpochs) := by
  simp [demoSpace, SearchSpace.fidelity, Hp.isFidelity, demoLr, demoEpochs]

theorem demoBuilt_ok : ∃ o, Gives demoCtx demoBuilt o := by
  rw [C140_accepted (by decide +kernel)]
  refine ⟨?_, ⟨⟨0, rfl, le_refl _, by norm_num⟩, rfl, rfl, ⟨3, 0, ?_, rfl, by norm_num⟩, ?_⟩,
    fun _ => rfl, fun _ => rfl⟩
  · unfold Built.NamesOk
    decide +kernel
  · unfold Ctx.limitOf demoBuilt
    simp only
    rw [demoSpace_fidelity]
    rfl
  · have h1 : (demoBuilt.chosen "use_priors").truthy = true := rfl
    have h2 : (demoBuilt.chosen "prior_confidence").confidence = some "medium" := rfl
    rw [h1, h2]
    simp [demoBuilt, demoSpace, SearchSpace.enhance, Hp.enhance, Hp.isFidelity, demoEpochs, demoLr,
      customFloatScore, customCatScore]

/-- The optimizer has the two settings, a default and the budget, and four brackets that all have
them. -/
example : ∃ o, Gives demoCtx demoBuilt o ∧ o.attr "eta" = some (.int 4) ∧
    o.attr "sampling_policy.inc_type" = some (.str "crossover") ∧
    o.attr "inc_style" = some (.str "dynamic") ∧ o.attr "budget" = some (.int 100) ∧
    o.brackets.length = 4 ∧ ∀ br ∈ o.brackets, br.get? "eta" = some (.int 4) := by
  obtain ⟨o, ho⟩ := demoBuilt_ok
  obtain ⟨⟨limit, h1, h2⟩, h3⟩ := C140_brackets (by decide +kernel) ho
  refine ⟨o, ho, C140_settings_partial ho (k := "eta") (by decide +kernel),
    C140_settings_partial ho (k := "inc_sample_type") (by decide +kernel),
    C140_settings_partial ho (k := "inc_style") (by decide +kernel),
    C140_settings_partial ho (k := "budget") (by decide +kernel), ?_, fun br hbr => ?_⟩
  · unfold Ctx.limitOf demoBuilt at h1
    simp only at h1
    rw [demoSpace_fidelity] at h1
    simp only [Option.bind_some, demoCtx, Option.some.injEq] at h1
    omega
  · obtain ⟨i, hi⟩ := List.mem_iff_getElem?.mp hbr
    exact (h3 i br hi).2.2.1 "eta" (by decide)

/-- The rate of mutation is not given. -/
example : ∃ o, Gives demoCtx demoBuilt o ∧ o.attr "inc_mutation_rate" = some (.float (1 / 2)) := by
  obtain ⟨o, ho⟩ := demoBuilt_ok
  exact ⟨o, ho, C140_defaults ho (k := "inc_mutation_rate") (by decide +kernel) rfl
    (.inl ⟨by decide +kernel, by simp [halvingDefault, demoBuilt]⟩)⟩

/-- A misspelled setting. -/
example : Raises demoCtx { demoBuilt with kwargs := [("etta", .int 4)] } .typeError :=
  C140_unknown_partial (by decide +kernel) rfl (k := "etta") (by simp [Dict.keys]) (by decide +kernel)

/-- Bayesian optimization does not take a space with a fidelity. -/
example : ¬ ∃ o, Gives demoCtx { demoBuilt with cls := "BayesianOptimization", kwargs := [] } o := by
  rintro ⟨o, ho⟩
  have := ((C140_bayesian_optimization rfl o.space).mp ⟨o, ho, rfl⟩).2.2.1
  simp only [demoBuilt] at this
  rw [demoSpace_fidelity] at this
  simp at this

/-- ifBO does. -/
example : ∃ o, Gives demoCtx { demoBuilt with cls := "IFBO", kwargs := [("step_size", .int 2)] } o ∧
    o.attr "step_size" = some (.int 2) ∧ o.attr "budget" = some .null := by
  obtain ⟨o, ho, _⟩ := (C140_ifbo (ctx := demoCtx)
    (b := { demoBuilt with cls := "IFBO", kwargs := [("step_size", .int 2)] }) rfl demoSpace).mpr
    ⟨by unfold Built.NamesOk; decide +kernel, by
      simp only [demoBuilt]
      rw [demoSpace_fidelity]
      simp, rfl⟩
  exact ⟨o, ho, C140_settings_partial ho (k := "step_size") (by decide +kernel),
    (C140_errors_fails (by decide +kernel) ho).1⟩

end Verif.Args
