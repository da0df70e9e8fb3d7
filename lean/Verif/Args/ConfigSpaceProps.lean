import Verif.Args.ConfigSpaceLemmas

/-!
# C119: a space given as a `ConfigSpace` object is the space NePS searches
-/

namespace Verif.Args

open Verif.Space

/-- An argument NePS can express: legal declarations of distinct names, at most one fidelity, no
conditions and forbidden clauses, no kind NePS does not know, no step widths and no single
choices. -/
structure SpaceIn.Expressible (s : SpaceIn) : Prop where
  legal : ∀ p ∈ s.declared, p.2.Legal
  names : (s.declared.map (·.1)).Nodup
  fidelity : (s.declared.filter fun p => p.2.isFidelity).length ≤ 1
  free : ∀ c ∈ s.spaces, c.conditions = 0 ∧ c.forbiddens = 0
  plain : ∀ p ∈ s.declared, p.2.Plain

theorem becomes_ok {d : Decl} (hl : d.Legal) (hp : d.Plain) : ∃ h, d.Becomes h := by
  cases d with
  | own h => exact ⟨h, rfl⟩
  | other k =>
    obtain ⟨h, hh, _⟩ := csConvert_ok hl hp.1 hp.2.2
    exact ⟨h, hh⟩

theorem becomes_same {d : Decl} (hl : d.Legal) (hp : d.Plain) {h : Hp} (hb : d.Becomes h) :
    h.Ok ∧ (∀ v, h.Accepts v ↔ d.Allows v) ∧ h.dflt = d.dflt ∧ h.isFidelity = d.isFidelity ∧
      h.isLog = d.isLog := by
  cases d with
  | own x =>
    simp only [Decl.Becomes] at hb
    subst hb
    exact ⟨hl, fun _ => Iff.rfl, rfl, rfl, rfl⟩
  | other k =>
    obtain ⟨x, hx, h1, h2, h3, h4, _, h5, h6⟩ := csConvert_ok hl hp.1 hp.2.2
    simp only [Decl.Becomes] at hb
    rw [hx] at hb
    cases hb
    exact ⟨h1, fun v => ⟨h6 hp.2.1 v, h5 v⟩, h3, h2, h4⟩

theorem forall₂_fidelity {l : List (String × Decl)} {m : Dict Hp}
    (h : List.Forall₂ (fun p q => q.2.isFidelity = p.2.isFidelity) l m) :
    (m.filter fun p => p.2.isFidelity).length = (l.filter fun p => p.2.isFidelity).length := by
  induction h with
  | nil => rfl
  | cons hab _ ih =>
    simp only [List.filter_cons, hab]
    split_ifs <;> simp [ih]

/-- **C119** The space of a run has exactly the declared parameters, wherever they were declared:
each under its name, with the values, the default, the scale and the role that were declared.
Missing, see the theorems below: step widths are lost, and single choices are refused. -/
theorem C119_space_partial (s : SpaceIn) (hs : s.Expressible) :
    ∃ t, runSpace s = some t ∧ t.InOrder ∧ (Dict.keys t).Perm (s.declared.map (·.1)) ∧
      ∀ p ∈ s.declared, ∃ h, Dict.get? t p.1 = some h ∧ (∀ v, h.Accepts v ↔ p.2.Allows v) ∧
        h.dflt = p.2.dflt ∧ h.isFidelity = p.2.isFidelity ∧ h.isLog = p.2.isLog := by
  obtain ⟨m, h1, h2⟩ := collected_in s hs.names hs.free
    (fun p hp => becomes_ok (hs.legal p hp) (hs.plain p hp))
  have h3 : List.Forall₂ (fun (p : String × Decl) (q : String × Hp) => q.1 = p.1 ∧ q.2.Ok ∧
      (∀ v, q.2.Accepts v ↔ p.2.Allows v) ∧ q.2.dflt = p.2.dflt ∧
      q.2.isFidelity = p.2.isFidelity ∧ q.2.isLog = p.2.isLog) s.declared m :=
    forall₂_imp_mem h2 (fun p hp q _ h =>
      ⟨h.1, becomes_same (hs.legal p hp) (hs.plain p hp) h.2⟩)
  have hk : m.keys = s.declared.map (·.1) := forall₂_keys h3 (fun _ _ h => h.1)
  have hn : m.keys.Nodup := by rw [hk]; exact hs.names
  have hf : (m.sorted.filter fun p => p.2.isFidelity).length ≤ 1 := by
    rw [((Dict.sorted_perm m).filter _).length_eq,
      forall₂_fidelity (h3.imp fun _ _ h => h.2.2.2.2.1)]
    exact hs.fidelity
  have hmk : SearchSpace.make m = some m.sorted := by
    unfold SearchSpace.make
    simp only
    rw [if_neg (by omega)]
  refine ⟨m.sorted, by rw [h1, hmk], ⟨m, hn, ?_, hmk⟩, ?_, ?_⟩
  · intro q hq
    obtain ⟨p, _, h⟩ := forall₂_mem_right h3 q hq
    exact h.2.1
  · rw [← hk]
    exact (Dict.sorted_perm m).map _
  · intro p hp
    obtain ⟨q, hq, e1, _, e2⟩ := forall₂_mem_left h3 p hp
    refine ⟨q.2, ?_, e2⟩
    refine Dict.get?_of_mem (Dict.sorted_keys_nodup hn) ?_
    rw [(Dict.sorted_perm m).mem_iff, ← e1]
    exact hq

theorem SpaceIn.decl_unique {s : SpaceIn} (hn : (s.declared.map (·.1)).Nodup) {p q : String × Decl}
    (hp : p ∈ s.declared) (hq : q ∈ s.declared) (h : p.1 = q.1) : p = q :=
  List.inj_on_of_nodup_map hn hp hq h

/-- **C119** Whatever NePS samples from the space is a configuration the declared spaces allow: it
gives every declared parameter, and no other one, a value the declaration allows. -/
theorem C119_sampled_partial (s : SpaceIn) (hs : s.Expressible) (t : SearchSpace)
    (ht : runSpace s = some t) (userPriors : Bool) (patience : ℕ) (draws : String → List Draw)
    (c : SearchSpace) (hc : t.sample userPriors false patience draws = some c) (conf : Dict Val)
    (hconf : c.serialize = some conf) :
    conf.keys.Perm (s.declared.map (·.1)) ∧
      ∀ kv ∈ conf, ∃ d, (kv.1, d) ∈ s.declared ∧ d.Allows kv.2 := by
  obtain ⟨t', h1, h2, h3, h4⟩ := C119_space_partial s hs
  rw [ht] at h1
  cases h1
  obtain ⟨h5, h6⟩ := SearchSpace.C59_sample t h2 userPriors false patience draws c hc
  have hkc : Dict.keys c = Dict.keys t := forall₂_keys h6 (fun _ _ h => h.1)
  have h7 := mapM_forall₂ hconf
  have h8 : List.Forall₂ (fun (p : String × Hp) (kv : String × Val) => kv.1 = p.1 ∧
      p.2.value = some kv.2) c conf := by
    refine h7.imp ?_
    intro p kv h
    rw [Option.map_eq_some_iff] at h
    obtain ⟨v, hv, rfl⟩ := h
    exact ⟨rfl, hv⟩
  have hkconf : conf.keys = Dict.keys c := forall₂_keys h8 (fun _ _ h => h.1)
  refine ⟨by rw [hkconf, hkc]; exact h3, ?_⟩
  intro kv hkv
  obtain ⟨p, hp, e1, e2⟩ := forall₂_mem_right h8 kv hkv
  obtain ⟨q, hq, f1, f2, f3⟩ := forall₂_mem_right h6 p hp
  have hmem : q.1 ∈ s.declared.map (·.1) := h3.mem_iff.mp (List.mem_map_of_mem (f := (·.1)) hq)
  obtain ⟨d, hd, hdq⟩ := List.mem_map.mp hmem
  obtain ⟨h, g1, g2, _⟩ := h4 d hd
  have : h = q.2 := by
    have := Dict.get?_of_mem h2.nodup (k := q.1) (v := q.2) hq
    rw [← hdq, g1] at this
    exact Option.some.inj this
  subst this
  rw [if_neg (by simp)] at f3
  obtain ⟨v, hv, ha⟩ := f3
  rw [e2] at hv
  cases hv
  refine ⟨d.2, ?_, (g2 _).mp ha⟩
  have : d = (kv.1, d.2) := by rw [e1, f1, ← hdq]
  rw [← this]
  exact hd

/-- **C119** Every configuration the declared spaces allow can be loaded: no value is refused and
every value is kept. -/
theorem C119_loaded_partial (s : SpaceIn) (hs : s.Expressible) (t : SearchSpace)
    (ht : runSpace s = some t) (conf : Dict Val) (hn : conf.keys.Nodup)
    (hall : ∀ kv ∈ conf, ∃ d, (kv.1, d) ∈ s.declared ∧ d.Allows kv.2) :
    ∃ c, t.fromDict conf = some c ∧
      ∀ kv ∈ conf, (Dict.get? c kv.1).bind Hp.value = some kv.2 := by
  obtain ⟨t', h1, h2, h3, h4⟩ := C119_space_partial s hs
  rw [ht] at h1
  cases h1
  obtain ⟨c, e1, _, e3⟩ := SearchSpace.C60_from_dict t h2 conf hn (by
    intro kv hkv
    obtain ⟨d, hd, ha⟩ := hall kv hkv
    obtain ⟨h, g1, g2, _⟩ := h4 _ hd
    exact ⟨h, g1, (g2 _).mpr ha⟩)
  refine ⟨c, e1, fun kv hkv => ?_⟩
  obtain ⟨d, hd, _⟩ := hall kv hkv
  obtain ⟨h, g1, _⟩ := h4 _ hd
  obtain ⟨b, b1, _, _, b2⟩ := forall₂_get? e3 (fun _ _ h => h.1) g1
  rw [b1, Option.bind_some, b2, Dict.get?_of_mem hn (v := kv.2) hkv, Option.some_or]

/-- **C119** What NePS cannot express is refused: a space with a condition, a forbidden clause or a
hyperparameter of a kind NePS does not know raises, alone or among other entries. -/
theorem C119_refused (s : SpaceIn)
    (h : ∃ c ∈ s.spaces, c.conditions ≠ 0 ∨ c.forbiddens ≠ 0 ∨ ∃ p ∈ c.hps, ¬ p.2.Known) :
    runSpace s = none := by
  obtain ⟨c, hc, h⟩ := h
  have hnone : fromConfigspace c = none := by
    unfold fromConfigspace
    split_ifs with hcf
    · rfl
    · rcases h with h | h | ⟨p, hp, h⟩
      · omega
      · omega
      · refine unconverted _ ⟨p, hp, ?_⟩
        cases hk : p.2 with
        | other => rfl
        | _ => rw [hk] at h; exact absurd trivial h
  cases s with
  | space c' =>
    simp only [SpaceIn.spaces, List.mem_singleton] at hc
    subst hc
    simp [runSpace, hnone]
  | dict d =>
    simp only [SpaceIn.spaces, List.mem_filterMap] at hc
    obtain ⟨p, hp, hpc⟩ := hc
    simp only [runSpace, Option.bind_eq_bind]
    rw [uncollected d ⟨p, hp, c, by
      revert hpc
      cases p.2 with
      | own h => simp
      | space x => simp, hnone⟩]
    rfl

/-- **C119** The default values of a `ConfigSpace` object, which it always has, count as the user's
belief: without a searcher of their own, the user gets the one that follows priors. -/
theorem C119_default_is_prior (c : ConfigSpace) (hs : (SpaceIn.space c).Expressible)
    (hv : ∃ p ∈ c.hps, ¬ p.2.IsConst) (t : SearchSpace) (ht : runSpace (.space c) = some t) :
    nepsChoice t = "pibo" := by
  obtain ⟨m, h1, h2⟩ := collected_in (.space c) hs.names hs.free
    (fun p hp => becomes_ok (hs.legal p hp) (hs.plain p hp))
  rw [ht] at h1
  have hperm : t.Perm m := by
    unfold SearchSpace.make at h1
    simp only at h1
    split_ifs at h1
    cases h1
    exact Dict.sorted_perm m
  obtain ⟨p, hp, hnc⟩ := hv
  have hd : (p.1, Decl.other p.2) ∈ (SpaceIn.space c).declared := List.mem_map.mpr ⟨p, hp, rfl⟩
  obtain ⟨q, hq, _, e⟩ := forall₂_mem_left h2 _ hd
  have hl := hs.legal _ hd
  have hpl := hs.plain _ hd
  obtain ⟨h, g1, _, _, _, _, g2, _⟩ := csConvert_ok hl hpl.1 hpl.2.2
  simp only [Decl.Becomes] at e
  rw [g1] at e
  cases e
  have hprior : t.hasPrior = true := by
    unfold SearchSpace.hasPrior
    rw [List.any_eq_true]
    exact ⟨q, hperm.mem_iff.mpr hq, g2.mpr hnc⟩
  have hfid : t.hasFidelity = false := by
    unfold SearchSpace.hasFidelity SearchSpace.fidelity
    rw [Option.isSome_eq_false_iff, Option.isNone_iff_eq_none, List.find?_eq_none]
    intro x hx
    obtain ⟨y, hy, _, hb⟩ := forall₂_mem_right h2 x (hperm.mem_iff.mp hx)
    obtain ⟨_, _, _, hf, _⟩ := becomes_same (hs.legal _ hy) (hs.plain _ hy) hb
    obtain ⟨z, _, rfl⟩ := List.mem_map.mp hy
    rw [hf]
    simp [Decl.isFidelity]
  unfold nepsChoice
  rw [hprior, hfid]
  rfl

/-! ## A concrete argument -/

/-- A learning rate and an optimizer in `ConfigSpace`. -/
noncomputable def demoCS : ConfigSpace :=
  ⟨[("lr", .float 1 10 true none 2), ("opt", .ord [.str "adam", .str "sgd"] (.str "sgd")),
    ("layers", .int 1 5 false none 3), ("seed", .const (.num 7))], 0, 0⟩

/-- The number of epochs is added by the user. -/
noncomputable def demoIn : SpaceIn := .dict [("epochs", .own (.int demoEpochs)), ("cs", .space demoCS)]

theorem demoIn_expressible : demoIn.Expressible := by
  refine ⟨?_, by decide, ?_, by simp [demoIn, SpaceIn.spaces, demoCS], ?_⟩
  · simp only [demoIn, SpaceIn.declared, List.flatMap_cons, List.flatMap_nil, declaredBy, demoCS,
      List.map_cons, List.map_nil, List.append_nil, List.cons_append, List.nil_append,
      List.mem_cons, List.not_mem_nil, or_false, forall_eq_or_imp, forall_eq]
    refine ⟨demoEpochs_ok, ?_, ?_, ?_, trivial⟩
    · simp only [Decl.Legal, CSKind.Legal]; norm_num
    · simp [Decl.Legal, CSKind.Legal]
    · simp [Decl.Legal, CSKind.Legal]
  · simp [demoIn, SpaceIn.declared, declaredBy, demoCS, Decl.isFidelity,
      Hp.isFidelity, demoEpochs]
  · simp [demoIn, SpaceIn.declared, declaredBy, demoCS, Decl.Plain, CSKind.Known, CSKind.Smooth,
      CSKind.Varied]

theorem demoCS_expressible : (SpaceIn.space demoCS).Expressible := by
  refine ⟨?_, by decide, ?_, by simp [SpaceIn.spaces, demoCS], ?_⟩
  · simp only [SpaceIn.declared, demoCS, List.map_cons, List.map_nil,
      List.mem_cons, List.not_mem_nil, or_false, forall_eq_or_imp, forall_eq]
    refine ⟨?_, ?_, ?_, trivial⟩
    · simp only [Decl.Legal, CSKind.Legal]; norm_num
    · simp [Decl.Legal, CSKind.Legal]
    · simp [Decl.Legal, CSKind.Legal]
  · simp [SpaceIn.declared, demoCS, Decl.isFidelity]
  · simp [SpaceIn.declared, demoCS, Decl.Plain, CSKind.Known, CSKind.Smooth, CSKind.Varied]

example : ∃ t, runSpace demoIn = some t ∧
    (Dict.keys t).Perm ["epochs", "lr", "opt", "layers", "seed"] := by
  obtain ⟨t, h, _, h2, _⟩ := C119_space_partial demoIn demoIn_expressible
  exact ⟨t, h, h2⟩

example : ∃ t c, runSpace demoIn = some t ∧
    t.fromDict [("epochs", .num (3 : ℤ)), ("opt", .str "adam")] = some c ∧
    (Dict.get? c "opt").bind Hp.value = some (.str "adam") := by
  obtain ⟨t, h, _⟩ := C119_space_partial demoIn demoIn_expressible
  obtain ⟨c, h1, h2⟩ := C119_loaded_partial demoIn demoIn_expressible t h
    [("epochs", .num (3 : ℤ)), ("opt", .str "adam")] (by decide) (by
      simp only [demoIn, SpaceIn.declared, List.flatMap_cons, List.flatMap_nil, declaredBy, demoCS,
        List.map_cons, List.map_nil, List.append_nil, List.cons_append, List.nil_append,
        List.mem_cons, List.not_mem_nil, or_false, forall_eq_or_imp, forall_eq]
      exact ⟨⟨_, .inl rfl, 3, rfl, by decide, by decide⟩, ⟨_, .inr (.inr (.inl rfl)), by
        simp [Decl.Allows, CSKind.Allows]⟩⟩)
  exact ⟨t, c, h, h1, h2 ("opt", .str "adam") (by simp)⟩

example : ∃ t c conf, runSpace demoIn = some t ∧
    t.sample false false 1 (fun _ => [⟨1, 1, 0⟩]) = some c ∧ c.serialize = some conf ∧
    conf.keys.Perm ["epochs", "lr", "opt", "layers", "seed"] := by
  obtain ⟨t, h, h2, hk, h3⟩ := C119_space_partial demoIn demoIn_expressible
  have hd : ∀ p ∈ t, ∃ d ds, (fun _ : String => [(⟨1, 1, 0⟩ : Draw)]) p.1 = d :: ds ∧
      p.2.Drawable d := by
    intro p hp
    refine ⟨_, _, rfl, ?_⟩
    have := (h2.ok p hp).used
    cases hx : p.2 with
    | cat q =>
      rw [hx] at this
      have hq : CatParam.Used q := this
      simp only [Hp.Drawable]
      have := hq.inv.two
      omega
    | _ => trivial
  obtain ⟨c, hc⟩ := SearchSpace.C59_sample_total t h2 false false 1 le_rfl
    (fun _ => [⟨1, 1, 0⟩]) hd
  obtain ⟨_, h6⟩ := SearchSpace.C59_sample t h2 _ _ _ _ c hc
  obtain ⟨conf, hconf, _⟩ := SearchSpace.serialize_some (c := c) (by
    intro q hq
    obtain ⟨p, _, _, _, f⟩ := forall₂_mem_right h6 q hq
    rw [if_neg (by simp)] at f
    obtain ⟨v, hv, _⟩ := f
    rw [hv]; simp)
  exact ⟨t, c, conf, h, hc, hconf,
    (C119_sampled_partial demoIn demoIn_expressible t h _ _ _ c hc conf hconf).1⟩

example : ∃ t, runSpace (.space demoCS) = some t ∧ nepsChoice t = "pibo" := by
  obtain ⟨t, h, _⟩ := C119_space_partial _ demoCS_expressible
  exact ⟨t, h, C119_default_is_prior demoCS demoCS_expressible
    ⟨_, List.mem_cons_self .., by simp [CSKind.IsConst]⟩ t h⟩

example : runSpace (.dict [("cs", .space ⟨demoCS.hps, 1, 0⟩)]) = none :=
  C119_refused _ ⟨⟨demoCS.hps, 1, 0⟩, by simp [SpaceIn.spaces], by simp⟩

/-! ## What is missing -/

/-- A step width is lost: here only 0, 1/2 and 1 are allowed, and NePS samples 1/4. -/
theorem C119_steps_fails : ∃ (c : ConfigSpace) (t cfg : SearchSpace) (draws : String → List Draw),
    c.Legal ∧ c.conditions = 0 ∧ c.forbiddens = 0 ∧ runSpace (.space c) = some t ∧
      t.sample false false 1 draws = some cfg ∧
      ∃ p ∈ c.hps, ∃ v, (Dict.get? cfg p.1).bind Hp.value = some v ∧ ¬ p.2.Allows v := by
  have hf := FloatParam.make_some (l := 0) (u := 1) (log := false) (fid := false) (d := some (1 / 2))
    (s := 1 / 2) (by norm_num) (by simp) (by intro x hx; cases hx; norm_num)
  have hf' : FloatParam.make 0 1 false false (some (2 : ℝ)⁻¹) (2 : ℝ)⁻¹ =
      some ⟨0, 1, false, false, some 2⁻¹, true, 2⁻¹, 2⁻¹, none, none⟩ := by
    simpa using hf
  have hr : runSpace (.space ⟨[("x", .float 0 1 false (some (1 / 2)) (1 / 2))], 0, 0⟩) =
      some [("x", .float ⟨0, 1, false, false, some (1 / 2), true, 1 / 2, 1 / 2, none, none⟩)] := by
    simp [runSpace, fromConfigspace, CSKind.convert, hf', addEntry, Dict.set, Dict.keys,
      SearchSpace.make, Dict.sorted, Hp.isFidelity]
  refine ⟨_, _, [("x", .float ⟨0, 1, false, false, some (1 / 2), true, 1 / 2, 1 / 2, some (1 / 4),
    some (1 / 4)⟩)], fun _ => [⟨1 / 4, 0, 0⟩], ⟨by simp [Dict.keys], ?_⟩, rfl, rfl, hr, ?_,
    ("x", .float 0 1 false (some (1 / 2)) (1 / 2)), by simp, .num (1 / 4), ?_, ?_⟩
  · simp only [List.mem_singleton, forall_eq, CSKind.Legal]
    norm_num
  · have h1 : ((4 : ℝ)⁻¹) ≤ 1 := by norm_num
    simp [SearchSpace.sample, SearchSpace.sampleHp, Hp.sample, FloatParam.sample, FloatParam.clone,
      hf', FloatParam.sampleValue, FloatParam.setValue, FloatParam.valueToNormalized,
      FloatParam.low, FloatParam.high, SearchSpace.make, Dict.sorted, Hp.isFidelity, h1]
  · simp [Dict.get?, Hp.value]
  · rintro ⟨x, hx, _, _, h⟩
    obtain ⟨k, hk⟩ := h _ rfl
    cases hx
    have h2 : (1 : ℝ) = 2 * k := by linarith
    have h3 : (1 : ℕ) = 2 * k := by exact_mod_cast h2
    omega

/-- A legal hyperparameter with a single choice is refused. -/
theorem C119_one_choice_fails : ∃ c : ConfigSpace, c.Legal ∧ c.conditions = 0 ∧ c.forbiddens = 0 ∧
    (∀ p ∈ c.hps, p.2.Known ∧ p.2.Smooth) ∧ runSpace (.space c) = none :=
  ⟨⟨[("opt", .cat [.str "adam"] (.str "adam"))], 0, 0⟩, ⟨by simp [Dict.keys], by
    simp [CSKind.Legal]⟩, rfl, rfl, by simp [CSKind.Known, CSKind.Smooth], by
    simp [runSpace, fromConfigspace, CSKind.convert, CatParam.make]⟩

/-- A name declared twice is not refused: the last declaration silently replaces the first one.
Here the user's own parameter, whose only value is 7, is gone. -/
theorem C119_clash_fails : ∃ (h : Hp) (c : ConfigSpace) (t : SearchSpace), c.Legal ∧ h.Ok ∧
    runSpace (.dict [("seed", .own h), ("cs", .space c)]) = some t ∧
      ¬ ∃ a, Dict.get? t "seed" = some a ∧ a.Accepts (.num 7) := by
  refine ⟨.const ⟨.num 7, .num 7⟩, ⟨[("seed", .const (.num 8))], 0, 0⟩,
    [("seed", .const ⟨.num 8, .num 8⟩)], ⟨by simp [Dict.keys], by simp [CSKind.Legal]⟩,
    ⟨rfl, by simp [Hp.value, Hp.Accepts], by simp [Hp.dflt, Hp.Accepts]⟩, ?_, ?_⟩
  · simp [runSpace, fromConfigspace, CSKind.convert, addEntry, Dict.set, Dict.update, Dict.keys,
      SearchSpace.make, Dict.sorted, Hp.isFidelity]
  · simp [Dict.get?, Hp.Accepts]

end Verif.Args
