import Verif.Args.Settings
import Verif.Args.YamlProps

/-! # Lemmas about the settings -/

namespace Verif.Space.Dict

variable {β : Type*}

theorem get?_erase {d : Dict β} {k k' : String} :
    (d.erase k).get? k' = if k' = k then none else d.get? k' := by
  induction d with
  | nil => simp [erase, get?_nil]
  | cons p d ih =>
    obtain ⟨a, b⟩ := p
    unfold erase at ih ⊢
    rw [List.filter_cons]
    by_cases ha : a = k
    · subst ha
      simp only [ne_eq, not_true_eq_false, decide_false, Bool.false_eq_true, ↓reduceIte]
      rw [ih, get?_cons]
      by_cases h : k' = a
      · simp [h]
      · rw [if_neg h, if_neg h, if_neg (Ne.symm h)]
    · simp only [ne_eq, ha, not_false_eq_true, decide_true, ↓reduceIte]
      rw [get?_cons, ih, get?_cons]
      by_cases h : a = k'
      · subst h; simp [ha]
      · simp [h]

theorem nodup_erase {d : Dict β} (hn : d.keys.Nodup) (k : String) : (d.erase k).keys.Nodup :=
  hn.sublist (List.Sublist.map _ List.filter_sublist)

theorem mem_keys_erase {d : Dict β} {k k' : String} :
    k' ∈ (d.erase k).keys ↔ k' ≠ k ∧ k' ∈ d.keys := by
  rw [mem_keys_iff, mem_keys_iff, get?_erase]
  by_cases h : k' = k <;> simp [h]

theorem get?_mapVal {γ : Type*} {d : Dict β} {f : String → β → γ} {k : String} :
    get? (d.map fun p => (p.1, f p.1 p.2)) k = (d.get? k).map (f k) := by
  induction d with
  | nil => simp [get?_nil]
  | cons p d ih =>
    obtain ⟨a, b⟩ := p
    rw [List.map_cons, get?_cons, get?_cons, ih]
    by_cases h : a = k
    · subst h; simp
    · simp [h]

theorem get?_filterKey {d : Dict β} {P : String → Bool} {k : String} :
    get? (d.filter fun p => P p.1) k = if P k then d.get? k else none := by
  induction d with
  | nil => simp [get?_nil]
  | cons p d ih =>
    obtain ⟨a, b⟩ := p
    rw [List.filter_cons]
    by_cases ha : P a = true
    · simp only [ha, ↓reduceIte]
      rw [get?_cons, ih, get?_cons]
      by_cases h : a = k
      · subst h; simp [ha]
      · simp [h]
    · rw [Bool.not_eq_true] at ha
      simp only [ha, Bool.false_eq_true, ↓reduceIte]
      rw [ih, get?_cons]
      by_cases h : a = k
      · subst h; simp [ha]
      · simp [h]

end Verif.Space.Dict

namespace Verif.Args

open Verif.Space (Dict)
open Verif.Space

theorem foldlM_eq_some {α β : Type*} {f : α → β → Option α} {g : α → β → α} :
    ∀ (l : List β) (a : α), (∀ p ∈ l, ∀ acc, f acc p = some (g acc p)) →
      l.foldlM f a = some (l.foldl g a)
  | [], a, _ => rfl
  | p :: l, a, h => by
    rw [List.foldlM_cons, h p (by simp) a]
    exact foldlM_eq_some l (g a p) fun q hq => h q (by simp [hq])

/-! ## Assigning and checking -/

theorem assign_spec {d : Dict Py} (hk : ∀ k ∈ d.keys, k ∈ attributes) (hn : d.keys.Nodup) :
    ∃ s, assign d = some s ∧ s.keys = attributes ∧
      ∀ a ∈ attributes, s.get? a = some (d.get? a) := by
  unfold assign
  have key : ∀ (l : Dict Py) (acc : Dict (Option Py)), Dict.keys acc = attributes →
      (∀ k ∈ Dict.keys l, k ∈ attributes) → (Dict.keys l).Nodup →
      ∃ s, l.foldlM (fun (acc : Dict (Option Py)) p =>
        if p.1 ∈ attributes then some (acc.set p.1 (some p.2)) else none) acc = some s ∧
        s.keys = attributes ∧
        ∀ a, s.get? a = match Dict.get? l a with
          | some v => some (some v)
          | none => acc.get? a := by
    intro l
    induction l with
    | nil => intro acc ha _ _; exact ⟨acc, rfl, ha, fun a => by simp [Dict.get?_nil]⟩
    | cons p l ih =>
      obtain ⟨k, v⟩ := p
      intro acc ha hl hn'
      have hkm : k ∈ attributes := hl k (by simp [Dict.keys])
      have hkn : k ∉ Dict.keys l := by
        simp only [Dict.keys, List.map_cons, List.nodup_cons] at hn'
        exact hn'.1
      obtain ⟨s, h1, h2, h3⟩ := ih (acc.set k (some v))
        (by rw [Dict.keys_set_of_mem _ (by rw [ha]; exact hkm), ha])
        (fun k' hk' => hl k' (by simp only [Dict.keys, List.map_cons, List.mem_cons]; exact .inr hk'))
        (by simp only [Dict.keys, List.map_cons, List.nodup_cons] at hn'; exact hn'.2)
      refine ⟨s, ?_, h2, fun a => ?_⟩
      · rw [List.foldlM_cons]
        simp only [hkm, ↓reduceIte]
        exact h1
      · rw [h3, Dict.get?_cons]
        by_cases h : k = a
        · subst h
          rw [if_pos rfl, Dict.get?_none hkn]
          simp [Dict.get?_set]
        · rw [if_neg h]
          cases Dict.get? l a with
          | some w => rfl
          | none => simp [Dict.get?_set, Ne.symm h]
  have hinit : Dict.keys (attributes.map fun a => (a, (none : Option Py))) = attributes := by
    simp [Dict.keys, Function.comp_def]
  obtain ⟨s, h1, h2, h3⟩ := key d (attributes.map fun a => (a, none)) hinit hk hn
  refine ⟨s, h1, h2, fun a ha => ?_⟩
  rw [h3]
  cases h : d.get? a with
  | some v => rfl
  | none =>
    simp only
    apply Dict.get?_of_mem (by rw [hinit]; decide)
    exact List.mem_map.mpr ⟨a, ha, rfl⟩

theorem mapM_values {γ : Type*} : ∀ (s : Dict (Option γ)), (∀ p ∈ s, p.2.isSome = true) →
    ∃ r : Dict γ, s.mapM (fun p => p.2.map fun v => (p.1, v)) = some r ∧
      s = r.map fun p => (p.1, some p.2)
  | [], _ => ⟨[], rfl, rfl⟩
  | (k, o) :: s, h => by
    obtain ⟨r, h1, h2⟩ := mapM_values s fun p hp => h p (by simp [hp])
    obtain ⟨v, hv⟩ := Option.isSome_iff_exists.mp (h (k, o) (by simp))
    simp only at hv
    subst hv
    refine ⟨(k, v) :: r, ?_, by simp [h2]⟩
    rw [List.mapM_cons]
    simp only [Option.map_some, h1]
    rfl

/-- Assigning and checking a dictionary that has a value for every attribute. -/
theorem assign_check {d : Dict Py} (hk : ∀ k, k ∈ d.keys ↔ k ∈ attributes) (hn : d.keys.Nodup) :
    ∃ r : Dict Py, r.keys = attributes ∧ (∀ a ∈ attributes, r.get? a = d.get? a) ∧
      (assign d).bind check =
        if essentialOk ((r.get? "run_pipeline").getD .null) ((r.get? "root_directory").getD .null)
          ((r.get? "pipeline_space").getD .null) ((r.get? "max_cost_total").getD .null)
          ((r.get? "max_evaluations_total").getD .null) ((r.get? "searcher").getD .null)
        then some r else none := by
  obtain ⟨s, h1, h2, h3⟩ := assign_spec (fun k h => (hk k).mp h) hn
  have hsome : ∀ p ∈ s, p.2.isSome = true := by
    rintro ⟨k, o⟩ hp
    have hn' : s.keys.Nodup := by rw [h2]; decide
    have hka : k ∈ attributes := by
      rw [← h2]
      exact List.mem_map_of_mem (f := Prod.fst) hp
    have := Dict.get?_of_mem hn' hp
    rw [h3 k hka, Option.some.injEq] at this
    obtain ⟨v, hv⟩ := Dict.mem_keys_iff.mp ((hk k).mpr hka)
    simp [← this, hv]
  obtain ⟨r, hr, hsr⟩ := mapM_values s hsome
  refine ⟨r, ?_, fun a ha => ?_, ?_⟩
  · rw [← h2, hsr]; simp [Dict.keys, Function.comp_def]
  · have := h3 a ha
    rw [hsr, Dict.get?_mapVal (f := fun _ v => some v)] at this
    cases h : r.get? a with
    | none => rw [h] at this; simp at this
    | some v =>
      rw [h] at this
      simp only [Option.map_some, Option.some.injEq] at this
      exact this
  · rw [h1, Option.bind_some]
    unfold check
    rw [hr]
    rfl

/-! ## Merging -/

/-- The effect of one step when it does not raise. -/
def mergeStepPure (yaml merged : Dict Py) (key : String) (value : Arg) : Dict Py :=
  match value with
  | .given v => merged.set key v
  | .dflt v => if key ∈ yaml.keys then merged else merged.set key v

theorem mergeStep_eq {yaml merged : Dict Py} {key : String} {value : Arg}
    (h : key ≠ "searcher_kwargs") :
    mergeStep yaml merged key value = some (mergeStepPure yaml merged key value) := by
  unfold mergeStep mergeStepPure
  rw [if_neg h]
  cases value with
  | given v => rfl
  | dflt v => simp only; split_ifs <;> rfl

theorem foldl_merge {yaml : Dict Py} : ∀ (l : Dict Arg) (acc : Dict Py), (Dict.keys l).Nodup →
    acc.keys.Nodup → (∀ k ∈ yaml.keys, k ∈ acc.keys) →
    let r := l.foldl (fun m p => mergeStepPure yaml m p.1 p.2) acc
    r.keys.Nodup ∧ (∀ k, k ∈ r.keys ↔ k ∈ acc.keys ∨ k ∈ Dict.keys l) ∧
    ∀ k, r.get? k = match Dict.get? l k with
      | none => acc.get? k
      | some (.given v) => some v
      | some (.dflt v) => if k ∈ yaml.keys then acc.get? k else some v
  | [], acc, _, ha, _ => ⟨ha, fun k => by simp [Dict.keys], fun k => by simp [Dict.get?_nil]⟩
  | (key, value) :: l, acc, hn, ha, hy => by
    simp only [Dict.keys, List.map_cons, List.nodup_cons] at hn
    have hn' : (mergeStepPure yaml acc key value).keys.Nodup := by
      unfold mergeStepPure
      cases value with
      | given v => exact Dict.nodup_set ha _ _
      | dflt v => simp only; split_ifs; exacts [ha, Dict.nodup_set ha _ _]
    have hk : ∀ k, k ∈ (mergeStepPure yaml acc key value).keys ↔ k ∈ acc.keys ∨ k = key := by
      intro k
      unfold mergeStepPure
      cases value with
      | given v => simp only; rw [Dict.mem_keys_set, or_comm]
      | dflt v =>
        simp only
        split_ifs with h
        · exact ⟨.inl, fun h' => h'.elim id fun h' => by rw [h']; exact hy key h⟩
        · rw [Dict.mem_keys_set, or_comm]
    obtain ⟨h1, h2, h3⟩ := foldl_merge l (mergeStepPure yaml acc key value) hn.2 hn'
      (fun k h => (hk k).mpr (.inl (hy k h)))
    refine ⟨h1, fun k => ?_, fun k => ?_⟩
    · rw [List.foldl_cons, h2, hk]
      simp only [Dict.keys, List.map_cons, List.mem_cons, or_assoc]
    · rw [List.foldl_cons, h3, Dict.get?_cons]
      by_cases h : key = k
      · subst h
        rw [if_pos rfl, Dict.get?_none hn.1]
        unfold mergeStepPure
        cases value with
        | given v => simp [Dict.get?_set]
        | dflt v => simp only; split_ifs with h'; exacts [rfl, by simp [Dict.get?_set]]
      · rw [if_neg h]
        have : (mergeStepPure yaml acc key value).get? k = acc.get? k := by
          unfold mergeStepPure
          cases value with
          | given v => simp [Dict.get?_set, Ne.symm h]
          | dflt v => simp only; split_ifs <;> simp [Dict.get?_set, Ne.symm h]
        rw [this]

theorem runLocals_some {call : Dict Py} {func : Dict Arg} (h : runLocals call = some func) :
    func = signature.map (fun p => (p.1, localArg call p.1 p.2)) ++
      [("searcher_kwargs", .given (.dict ((extraKwargs call).erase "budget")))] := by
  unfold runLocals at h
  split_ifs at h
  exact (Option.some.inj h).symm

/-- The names and values inside `neps.run` that are not the extra keyword arguments. -/
def namedLocals (call : Dict Py) : Dict Arg := signature.map fun p => (p.1, localArg call p.1 p.2)

theorem namedLocals_keys (call : Dict Py) : (namedLocals call).keys = signature.keys := by
  simp [namedLocals, Dict.keys, Function.comp_def]

theorem namedLocals_get? (call : Dict Py) (k : String) :
    (namedLocals call).get? k = (signature.get? k).map (localArg call k) :=
  Dict.get?_mapVal (f := fun k v => localArg call k v)

theorem signature_nodup : signature.keys.Nodup := by decide

theorem not_kwargs_mem : "searcher_kwargs" ∉ signature.keys := by decide

/-- Everything `Settings.merge` does for the arguments of a call. -/
theorem merge_eq {call : Dict Py} {y : Dict Py} {kw : Dict Py} (hy : y.keys.Nodup)
    (hkw : (y.get? "searcher_kwargs").getD (.dict []) = .dict kw) :
    ∃ m, merge (namedLocals call ++
        [("searcher_kwargs", .given (.dict ((extraKwargs call).erase "budget")))]) y = some m ∧
      m.keys.Nodup ∧
      (∀ k, k ∈ m.keys ↔ k ∈ y.keys ∨ k ∈ signature.keys ∨ k = "searcher_kwargs") ∧
      (∀ k, k ≠ "searcher_kwargs" → m.get? k = match (namedLocals call).get? k with
        | none => y.get? k
        | some (.given v) => some v
        | some (.dflt v) => (y.get? k).or (some v)) ∧
      m.get? "searcher_kwargs" =
        some (.dict (Dict.update kw ((extraKwargs call).erase "budget"))) := by
  have hne : ∀ p ∈ namedLocals call, p.1 ≠ "searcher_kwargs" := by
    intro p hp h
    have : p.1 ∈ (namedLocals call).keys := List.mem_map_of_mem hp
    rw [namedLocals_keys, h] at this
    exact not_kwargs_mem this
  obtain ⟨h1, h2, h3⟩ := foldl_merge (yaml := y) (namedLocals call) y
    (by rw [namedLocals_keys]; exact signature_nodup) hy (fun k h => h)
  set r := (namedLocals call).foldl (fun m p => mergeStepPure y m p.1 p.2) y with hr
  have hf : (namedLocals call).foldlM (fun merged p => mergeStep y merged p.1 p.2) y = some r :=
    foldlM_eq_some _ _ fun p hp acc => mergeStep_eq (hne p hp)
  refine ⟨r.set "searcher_kwargs" (.dict (Dict.update kw ((extraKwargs call).erase "budget"))),
    ?_, Dict.nodup_set h1 _ _, fun k => ?_, fun k hk => ?_, ?_⟩
  · unfold merge
    rw [List.foldlM_append, hf]
    simp only [Option.bind_eq_bind, Option.bind_some, List.foldlM_cons, List.foldlM_nil]
    unfold mergeStep
    rw [if_pos rfl]
    simp only
    rw [hkw]
    rfl
  · rw [Dict.mem_keys_set, h2, namedLocals_keys]
    tauto
  · rw [Dict.get?_set, if_neg hk, h3]
    cases h : (namedLocals call).get? k with
    | none => rfl
    | some a =>
      cases a with
      | given v => rfl
      | dflt v =>
        simp only
        split_ifs with hm
        · obtain ⟨w, hw⟩ := Dict.mem_keys_iff.mp hm
          simp [hw]
        · simp [Dict.get?_none hm]
  · rw [Dict.get?_set, if_pos rfl]

theorem unwrap_keys (func : Dict Arg) : (unwrap func).keys = func.keys := by
  simp [unwrap, Dict.keys, Function.comp_def]

theorem unwrap_get? (func : Dict Arg) (k : String) :
    (unwrap func).get? k = (func.get? k).map Arg.value :=
  Dict.get?_mapVal (f := fun _ (a : Arg) => a.value)

/-! ## The settings from the YAML file -/

/-- What is used of the settings read from a YAML file. -/
structure YamlGood (y : Dict Py) : Prop where
  nodup : y.keys.Nodup
  names : ∀ k ∈ y.keys, k ∈ attributes
  kwargs : ∀ v, y.get? "searcher_kwargs" = some v → ∃ kw, v = .dict kw

theorem YamlGood.set {y : Dict Py} (h : YamlGood y) {k : String} {v : Py} (hk : k ∈ attributes)
    (hv : k = "searcher_kwargs" → ∃ kw, v = .dict kw) : YamlGood (y.set k v) where
  nodup := Dict.nodup_set h.nodup _ _
  names := by
    intro k' hk'
    rcases Dict.mem_keys_set.mp hk' with rfl | h'
    · exact hk
    · exact h.names _ h'
  kwargs := by
    intro w hw
    rw [Dict.get?_set] at hw
    split_ifs at hw with heq
    · rw [Option.some.injEq] at hw
      rw [← hw]
      exact hv heq.symm
    · exact h.kwargs w hw

theorem special_good {sp settings : Dict Py} {key : String} {process : Py → Option (Dict Py)}
    {r : Dict Py} (hs : YamlGood settings) (h : special sp key settings process = some r)
    (hp : ∀ v r, process v = some r → YamlGood r) : YamlGood r := by
  unfold special at h
  split at h
  · rw [Option.some.injEq] at h; exact h ▸ hs
  · split_ifs at h
    · rw [Option.some.injEq] at h; exact h ▸ hs
    · exact hp _ _ h

theorem storeSearcher_good {env : Env} {settings r : Dict Py} {v : Py} (hs : YamlGood settings)
    (h : storeSearcher env settings v = some r) : YamlGood r := by
  unfold storeSearcher at h
  split at h
  · cases h
  · rw [Option.some.injEq] at h
    rw [← h]
    exact (hs.set (by decide) fun _ => ⟨_, rfl⟩).set (by decide) fun h => absurd h (by decide)
  · rw [Option.some.injEq] at h
    rw [← h]
    exact hs.set (by decide) fun h => absurd h (by decide)

theorem map_set_good {settings r : Dict Py} {o : Option Py} {k : String} (hs : YamlGood settings)
    (hk : k ∈ attributes) (hk' : k ≠ "searcher_kwargs")
    (h : (o.map fun o => settings.set k o) = some r) : YamlGood r := by
  obtain ⟨x, _, rfl⟩ := Option.map_eq_some_iff.mp h
  exact hs.set hk fun h => absurd h hk'

theorem handleSpecial_good {env : Env} {settings sp r : Dict Py} (hs : YamlGood settings)
    (h : handleSpecial env settings sp = some r) : YamlGood r := by
  unfold handleSpecial at h
  simp only [Option.bind_eq_bind, Option.bind_eq_some_iff] at h
  obtain ⟨s1, h1, s2, h2, s3, h3, h4⟩ := h
  have g1 := special_good hs h1 fun v r h => map_set_good hs (by decide) (by decide) h
  have g2 := special_good g1 h2 fun v r h => map_set_good g1 (by decide) (by decide) h
  have g3 := special_good g2 h3 fun v r h => storeSearcher_good g2 h
  exact special_good g3 h4 fun v r h => map_set_good g3 (by decide) (by decide) h

theorem runArgsOf_good {env : Env} {doc : Py} {y : Dict Py} (h : runArgsOf env doc = some y) :
    YamlGood y := by
  unfold runArgsOf at h
  split at h
  · rename_i config
    simp only at h
    split_ifs at h with hexp
    split at h
    · cases h
    · rename_i settings hset
      split_ifs at h
      rw [Option.some.injEq] at h
      subst h
      have hexp' : ∀ k ∈ (extractLeafKeys config).1.keys, k ∈ expectedParameters := by
        intro k hk
        obtain ⟨p, hp, rfl⟩ := List.mem_map.mp hk
        exact of_decide_eq_true (List.all_eq_true.mp hexp p hp)
      refine handleSpecial_good ⟨(C37_leaf_sound config).1, fun k hk => ?_, fun v hv => ?_⟩ hset
      · have : ∀ k ∈ expectedParameters, k ∈ attributes := by decide
        exact this k (hexp' k hk)
      · have := hexp' _ (Dict.mem_keys_iff.mpr ⟨v, hv⟩)
        exact absurd this (by decide)
  · cases h

end Verif.Args
