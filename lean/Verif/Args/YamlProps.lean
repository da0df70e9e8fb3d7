import Verif.Args.Yaml
import Verif.Args.DictLemmas

/-!
# Flattening the YAML document (C37)
-/

namespace Verif.Args

open Verif.Space (Dict)

/-! ## Specification -/

/-- A value that counts as a setting: not a dictionary, not null and not the text "None". -/
def Py.IsSetting : Py → Prop
  | .null => False
  | .dict _ => False
  | .str s => s ≠ "None"
  | _ => True

/-- The document has, at some depth but not below a special key, the setting `k` with value `v`. -/
inductive LeafIn : List (String × Py) → String → Py → Prop
  | here {d k v} : (k, v) ∈ d → k ∉ specialNames → v.IsSetting → LeafIn d k v
  | under {d k' d' k v} : (k', Py.dict d') ∈ d → k' ∉ specialNames → LeafIn d' k v → LeafIn d k v

/-- The document has, at some depth but not below another special key, the special key `k` with
value `v`, which is not the text "None". -/
inductive SpecialIn : List (String × Py) → String → Py → Prop
  | here {d k v} : (k, v) ∈ d → k ∈ specialNames → v.isNoneText = false → SpecialIn d k v
  | under {d k' d' k v} : (k', Py.dict d') ∈ d → k' ∉ specialNames → SpecialIn d' k v →
      SpecialIn d k v

/-! ## Lemmas -/

theorem LeafIn.cons {p : String × Py} {d k v} (h : LeafIn d k v) : LeafIn (p :: d) k v := by
  cases h with
  | here h1 h2 h3 => exact .here (List.mem_cons_of_mem _ h1) h2 h3
  | under h1 h2 h3 => exact .under (List.mem_cons_of_mem _ h1) h2 h3

theorem SpecialIn.cons {p : String × Py} {d k v} (h : SpecialIn d k v) :
    SpecialIn (p :: d) k v := by
  cases h with
  | here h1 h2 h3 => exact .here (List.mem_cons_of_mem _ h1) h2 h3
  | under h1 h2 h3 => exact .under (List.mem_cons_of_mem _ h1) h2 h3

theorem leafIn_cons_iff {a : String} {w : Py} {d k v} : LeafIn ((a, w) :: d) k v ↔
    LeafIn [(a, w)] k v ∨ LeafIn d k v := by
  constructor
  · intro h
    cases h with
    | here h1 h2 h3 =>
      rcases List.mem_cons.mp h1 with h | h
      · exact .inl (.here (by rw [h]; simp) h2 h3)
      · exact .inr (.here h h2 h3)
    | under h1 h2 h3 =>
      rcases List.mem_cons.mp h1 with h | h
      · exact .inl (.under (by rw [h]; simp) h2 h3)
      · exact .inr (.under h h2 h3)
  · rintro (h | h)
    · cases h with
      | here h1 h2 h3 => exact .here (by simp at h1; simp [h1]) h2 h3
      | under h1 h2 h3 => exact .under (by simp at h1; simp only [h1]; simp) h2 h3
    · exact h.cons

theorem specialIn_cons_iff {a : String} {w : Py} {d k v} : SpecialIn ((a, w) :: d) k v ↔
    SpecialIn [(a, w)] k v ∨ SpecialIn d k v := by
  constructor
  · intro h
    cases h with
    | here h1 h2 h3 =>
      rcases List.mem_cons.mp h1 with h | h
      · exact .inl (.here (by rw [h]; simp) h2 h3)
      · exact .inr (.here h h2 h3)
    | under h1 h2 h3 =>
      rcases List.mem_cons.mp h1 with h | h
      · exact .inl (.under (by rw [h]; simp) h2 h3)
      · exact .inr (.under h h2 h3)
  · rintro (h | h)
    · cases h with
      | here h1 h2 h3 => exact .here (by simp at h1; simp [h1]) h2 h3
      | under h1 h2 h3 => exact .under (by simp at h1; simp only [h1]; simp) h2 h3
    · exact h.cons

/-- What the loop does, from any contents of the two dictionaries. -/
structure Loop (leaf special : Dict Py) (d : List (String × Py)) (r : Dict Py × Dict Py) :
    Prop where
  keys : r.2.keys = specialNames
  nodup : leaf.keys.Nodup → r.1.keys.Nodup
  leafSound : ∀ k v, r.1.get? k = some v → LeafIn d k v ∨ leaf.get? k = some v
  leafKeys : ∀ k, k ∈ r.1.keys ↔ k ∈ leaf.keys ∨ ∃ v, LeafIn d k v
  specSound : ∀ k v, r.2.get? k = some v → SpecialIn d k v ∨ special.get? k = some v
  specSome : ∀ k v, SpecialIn d k v → ∃ w, r.2.get? k = some w ∧ SpecialIn d k w

theorem not_special_of {k : String} {v : Py} {d : List (String × Py)} (hd : v = .dict d)
    (h : ¬ (k ∈ specialNames ∧ v.isNoneText = false)) : k ∉ specialNames := by
  intro hk
  exact h ⟨hk, by rw [hd]; rfl⟩

/-- One entry that is not a dictionary. -/
theorem scalar_loop (k : String) (v : Py) (leaf special : Dict Py)
    (hs : special.keys = specialNames) (hc : ¬ (k ∈ specialNames ∧ v.isNoneText = false))
    (hd : ∀ d, v ≠ .dict d) {r : Dict Py × Dict Py}
    (hr : r = if v.isNull = false ∧ v.isNoneText = false then (leaf.set k v, special)
      else (leaf, special)) : Loop leaf special [(k, v)] r := by
  have hset : (v.isNull = false ∧ v.isNoneText = false) ↔ v.IsSetting := by
    cases v <;> simp [Py.isNull, Py.isNoneText, Py.IsSetting]
    exact hd _ rfl
  have hleaf : ∀ {n w}, LeafIn [(k, v)] n w ↔ n = k ∧ w = v ∧ v.IsSetting := by
    intro n w
    constructor
    · intro h
      cases h with
      | here h1 h2 h3 =>
        simp only [List.mem_singleton, Prod.mk.injEq] at h1
        exact ⟨h1.1, h1.2, by rw [← h1.2]; exact h3⟩
      | under h1 h2 h3 =>
        simp only [List.mem_singleton, Prod.mk.injEq] at h1
        exact absurd h1.2.symm (hd _)
    · rintro ⟨rfl, rfl, h⟩
      exact .here (by simp) (fun hk => hc ⟨hk, (hset.mpr h).2⟩) h
  have hspec : ∀ {n w}, ¬ SpecialIn [(k, v)] n w := by
    intro n w h
    cases h with
    | here h1 h2 h3 =>
      simp only [List.mem_singleton, Prod.mk.injEq] at h1
      exact hc ⟨by rw [← h1.1]; exact h2, by rw [← h1.2]; exact h3⟩
    | under h1 h2 h3 =>
      simp only [List.mem_singleton, Prod.mk.injEq] at h1
      exact absurd h1.2.symm (hd _)
  by_cases h : v.isNull = false ∧ v.isNoneText = false
  · rw [if_pos h] at hr
    subst hr
    exact {
      keys := hs
      nodup := fun hn => Dict.nodup_set hn _ _
      leafSound := fun n w hw => by
        rw [Dict.get?_set] at hw
        rw [hleaf]
        split_ifs at hw with hn
        · simp only [Option.some.injEq] at hw
          exact .inl ⟨hn, hw.symm, hset.mp h⟩
        · exact .inr hw
      leafKeys := fun n => by
        simp only [hleaf]
        rw [Dict.mem_keys_set]
        simp only [hset.mp h, and_true, exists_and_left, exists_eq, or_comm]
      specSound := fun n w hw => .inr hw
      specSome := fun n w hw => absurd hw hspec }
  · rw [if_neg h] at hr
    subst hr
    exact {
      keys := hs
      nodup := id
      leafSound := fun n w hw => .inr hw
      leafKeys := fun n => by
        simp only [hleaf]
        have : ¬ v.IsSetting := fun h' => h (hset.mpr h')
        simp [this]
      specSound := fun n w hw => .inr hw
      specSome := fun n w hw => absurd hw hspec }

mutual

theorem extractLoop_loop : ∀ (d : List (String × Py)) (leaf special : Dict Py),
    special.keys = specialNames → Loop leaf special d (extractLoop leaf special d)
  | [], leaf, special, hs => by
    unfold extractLoop
    exact {
      keys := hs
      nodup := id
      leafSound := fun k v h => .inr h
      leafKeys := fun k => ⟨.inl, by
        rintro (h | ⟨v, h⟩)
        · exact h
        · cases h with
          | here h1 => simp at h1
          | under h1 => simp at h1⟩
      specSound := fun k v h => .inr h
      specSome := fun k v h => by
        cases h with
        | here h1 => simp at h1
        | under h1 => simp at h1 }
  | (a, w) :: rest, leaf, special, hs => by
    unfold extractLoop
    split_ifs with hc
    · have hc' : a ∈ specialNames := by rw [← hs]; exact hc.1
      have ih := extractLoop_loop rest leaf (special.set a w)
        (by rw [Dict.keys_set_of_mem _ hc.1, hs])
      exact {
        keys := ih.keys
        nodup := ih.nodup
        leafSound := fun k v h => (ih.leafSound k v h).imp (·.cons) id
        leafKeys := fun k => by
          rw [ih.leafKeys]
          refine or_congr_right ⟨fun ⟨v, h⟩ => ⟨v, h.cons⟩, fun ⟨v, h⟩ => ?_⟩
          rw [leafIn_cons_iff] at h
          rcases h with h | h
          · cases h with
            | here h1 h2 h3 =>
              simp only [List.mem_singleton, Prod.mk.injEq] at h1
              exact absurd hc' (by rw [← h1.1]; exact h2)
            | under h1 h2 h3 =>
              simp only [List.mem_singleton, Prod.mk.injEq] at h1
              exact absurd hc' (by rw [← h1.1]; exact h2)
          · exact ⟨v, h⟩
        specSound := fun k v h => by
          rcases ih.specSound k v h with h | h
          · exact .inl h.cons
          · rw [Dict.get?_set] at h
            split_ifs at h with hk
            · have hwv : w = v := Option.some.inj h
              subst hk hwv
              exact .inl (.here (by simp) hc' hc.2)
            · exact .inr h
        specSome := fun k v h => by
          by_cases hr : ∃ u, SpecialIn rest k u
          · obtain ⟨u, hu⟩ := hr
            obtain ⟨x, hx, hx'⟩ := ih.specSome k u hu
            exact ⟨x, hx, hx'.cons⟩
          · have hk : k ∈ (extractLoop leaf (special.set a w) rest).2.keys := by
              rw [ih.keys]
              rw [specialIn_cons_iff] at h
              rcases h with h | h
              · cases h with
                | here h1 h2 h3 => exact h2
                | under h1 h2 h3 =>
                  simp only [List.mem_singleton, Prod.mk.injEq] at h1
                  exact absurd hc' (by rw [← h1.1]; exact h2)
              · exact absurd ⟨v, h⟩ hr
            obtain ⟨x, hx⟩ := Dict.mem_keys_iff.mp hk
            refine ⟨x, hx, ?_⟩
            rw [specialIn_cons_iff] at h
            rcases h with h | h
            · cases h with
              | here h1 h2 h3 =>
                simp only [List.mem_singleton, Prod.mk.injEq] at h1
                rcases ih.specSound k x hx with h' | h'
                · exact h'.cons
                · rw [Dict.get?_set, if_pos h1.1] at h'
                  simp only [Option.some.injEq] at h'
                  subst h'
                  rw [h1.1]
                  exact .here (by simp) hc' hc.2
              | under h1 h2 h3 =>
                simp only [List.mem_singleton, Prod.mk.injEq] at h1
                exact absurd hc' (by rw [← h1.1]; exact h2)
            · exact absurd ⟨v, h⟩ hr }
    · rw [hs] at hc
      have ih1 := extractNested_loop a w leaf special hs hc
      have ih2 := extractLoop_loop rest (extractNested a w leaf special).1
        (extractNested a w leaf special).2 ih1.keys
      exact {
        keys := ih2.keys
        nodup := fun h => ih2.nodup (ih1.nodup h)
        leafSound := fun k v h => by
          rw [leafIn_cons_iff]
          rcases ih2.leafSound k v h with h | h
          · exact .inl (.inr h)
          · rcases ih1.leafSound k v h with h | h
            · exact .inl (.inl h)
            · exact .inr h
        leafKeys := fun k => by
          rw [ih2.leafKeys, ih1.leafKeys, or_assoc, ← exists_or]
          exact or_congr_right (exists_congr fun v => leafIn_cons_iff.symm)
        specSound := fun k v h => by
          rw [specialIn_cons_iff]
          rcases ih2.specSound k v h with h | h
          · exact .inl (.inr h)
          · rcases ih1.specSound k v h with h | h
            · exact .inl (.inl h)
            · exact .inr h
        specSome := fun k v h => by
          by_cases hr : ∃ u, SpecialIn rest k u
          · obtain ⟨u, hu⟩ := hr
            obtain ⟨x, hx, hx'⟩ := ih2.specSome k u hu
            exact ⟨x, hx, hx'.cons⟩
          · rw [specialIn_cons_iff] at h
            rcases h with h | h
            · obtain ⟨x, hx, hx'⟩ := ih1.specSome k v h
              have hk : k ∈ (extractLoop (extractNested a w leaf special).1
                  (extractNested a w leaf special).2 rest).2.keys := by
                rw [ih2.keys, ← ih1.keys]
                exact Dict.mem_keys_iff.mpr ⟨x, hx⟩
              obtain ⟨y, hy⟩ := Dict.mem_keys_iff.mp hk
              refine ⟨y, hy, ?_⟩
              rcases ih2.specSound k y hy with h' | h'
              · exact h'.cons
              · rw [hx] at h'
                simp only [Option.some.injEq] at h'
                subst h'
                rw [specialIn_cons_iff]
                exact .inl hx'
            · exact absurd ⟨v, h⟩ hr }

theorem extractNested_loop : ∀ (k : String) (v : Py) (leaf special : Dict Py),
    special.keys = specialNames → ¬ (k ∈ specialNames ∧ v.isNoneText = false) →
    Loop leaf special [(k, v)] (extractNested k v leaf special)
  | k, .dict d, leaf, special, hs, hc => by
    have hk := not_special_of rfl hc
    unfold extractNested
    have ih := extractLoop_loop d [] special hs
    have hn : (extractLoop [] special d).1.keys.Nodup := ih.nodup (by simp [Dict.keys])
    have hleaf : ∀ {n v}, LeafIn [(k, Py.dict d)] n v ↔ LeafIn d n v := by
      intro n v
      constructor
      · intro h
        cases h with
        | here h1 h2 h3 =>
          simp only [List.mem_singleton, Prod.mk.injEq] at h1
          rw [h1.2] at h3
          exact h3.elim
        | under h1 h2 h3 =>
          simp only [List.mem_singleton, Prod.mk.injEq, Py.dict.injEq] at h1
          rwa [h1.2] at h3
      · exact fun h => .under (by simp) hk h
    have hspec : ∀ {n v}, SpecialIn [(k, Py.dict d)] n v ↔ SpecialIn d n v := by
      intro n v
      constructor
      · intro h
        cases h with
        | here h1 h2 h3 =>
          simp only [List.mem_singleton, Prod.mk.injEq] at h1
          exact absurd h2 (by rw [h1.1]; exact hk)
        | under h1 h2 h3 =>
          simp only [List.mem_singleton, Prod.mk.injEq, Py.dict.injEq] at h1
          rwa [h1.2] at h3
      · exact fun h => .under (by simp) hk h
    exact {
      keys := ih.keys
      nodup := fun h => Dict.nodup_update h _
      leafSound := fun n v h => by
        rw [Dict.get?_update, Dict.get?_reverse hn] at h
        rw [hleaf]
        cases hg : Dict.get? (extractLoop [] special d).1 n with
        | none => rw [hg, Option.none_or] at h; exact .inr h
        | some u =>
          rw [hg, Option.some_or, Option.some.injEq] at h
          subst h
          rcases ih.leafSound n u hg with h | h
          · exact .inl h
          · simp [Dict.get?_nil] at h
      leafKeys := fun n => by
        rw [Dict.mem_keys_update, ih.leafKeys]
        simp [hleaf, Dict.keys]
      specSound := fun n v h => by rw [hspec]; exact ih.specSound n v h
      specSome := fun n v h => by
        rw [hspec] at h
        obtain ⟨w, hw, hw'⟩ := ih.specSome n v h
        exact ⟨w, hw, hspec.mpr hw'⟩ }
  | k, .null, leaf, special, hs, hc => scalar_loop k _ leaf special hs hc (by simp) (by simp [extractNested])
  | k, .bool b, leaf, special, hs, hc => scalar_loop k _ leaf special hs hc (by simp) (by simp [extractNested])
  | k, .int n, leaf, special, hs, hc => scalar_loop k _ leaf special hs hc (by simp) (by simp [extractNested])
  | k, .float x, leaf, special, hs, hc => scalar_loop k _ leaf special hs hc (by simp) (by simp [extractNested])
  | k, .str s, leaf, special, hs, hc => scalar_loop k _ leaf special hs hc (by simp) (by simp [extractNested])
  | k, .list l, leaf, special, hs, hc => scalar_loop k _ leaf special hs hc (by simp) (by simp [extractNested])
  | k, .obj o, leaf, special, hs, hc => scalar_loop k _ leaf special hs hc (by simp) (by simp [extractNested])

end

/-! ## C37 -/

theorem noSpecials_keys : Dict.keys noSpecials = specialNames := rfl

theorem extract_loop (d : List (String × Py)) : Loop [] noSpecials d (extractLeafKeys d) :=
  extractLoop_loop d [] noSpecials noSpecials_keys

theorem noSpecials_get? {k : String} {v : Py} (h : Dict.get? noSpecials k = some v) :
    v = .null := by
  have := Verif.Space.Dict.mem_keys_iff.mpr ⟨v, h⟩
  rw [noSpecials_keys] at this
  simp only [specialNames, List.mem_cons, List.not_mem_nil, or_false] at this
  rcases this with rfl | rfl | rfl | rfl <;>
  · simp [noSpecials, specialNames, Dict.get?] at h
    exact h.symm

/-- **C37**: a name appears among the flat settings exactly when the document has, at some depth,
a setting of that name whose value is not a dictionary, null or the text "None". -/
theorem C37_leaf_names (d : List (String × Py)) (k : String) :
    k ∈ (extractLeafKeys d).1.keys ↔ ∃ v, LeafIn d k v := by
  rw [(extract_loop d).leafKeys]
  simp [Dict.keys]

/-- **C37**: the flat settings have no name twice, and nothing else than values the document gives
to that name. -/
theorem C37_leaf_sound (d : List (String × Py)) :
    (extractLeafKeys d).1.keys.Nodup ∧
    ∀ k v, (k, v) ∈ (extractLeafKeys d).1 → LeafIn d k v := by
  have hn := (extract_loop d).nodup (by simp [Dict.keys])
  refine ⟨hn, fun k v h => ?_⟩
  have hg : (extractLeafKeys d).1.get? k = some v := Verif.Space.Dict.get?_of_mem hn h
  rcases (extract_loop d).leafSound k v hg with h | h
  · exact h
  · simp [Verif.Space.Dict.get?_nil] at h

/-- **C37** (partial): a setting whose name has only one value in the document appears with that
value.  Missing: a name given at several levels keeps only one of its values
(`C37_duplicate_fails`). -/
theorem C37_leaf_complete_partial (d : List (String × Py)) (k : String) (v : Py)
    (h : LeafIn d k v) (hu : ∀ w, LeafIn d k w → w = v) :
    (extractLeafKeys d).1.get? k = some v := by
  obtain ⟨w, hw⟩ := Verif.Space.Dict.mem_keys_iff.mp ((C37_leaf_names d k).mpr ⟨v, h⟩)
  rcases (extract_loop d).leafSound k w hw with h' | h'
  · rw [hw, hu w h']
  · simp [Verif.Space.Dict.get?_nil] at h'

/-- **C37**: the special settings are exactly the four special names, whatever the document; each
has a value the document gives it, at any depth, and is null if the document does not mention
it. -/
theorem C37_special (d : List (String × Py)) :
    (extractLeafKeys d).2.keys =
      ["run_pipeline", "pre_load_hooks", "searcher", "pipeline_space"] ∧
    ∀ k ∈ specialNames, ∃ v, (extractLeafKeys d).2.get? k = some v ∧
      (SpecialIn d k v ∨ (v = .null ∧ ∀ w, ¬ SpecialIn d k w)) := by
  refine ⟨(extract_loop d).keys, fun k hk => ?_⟩
  by_cases h : ∃ w, SpecialIn d k w
  · obtain ⟨w, hw⟩ := h
    obtain ⟨v, hv, hv'⟩ := (extract_loop d).specSome k w hw
    exact ⟨v, hv, .inl hv'⟩
  · obtain ⟨v, hv⟩ := Verif.Space.Dict.mem_keys_iff.mp
      (show k ∈ (extractLeafKeys d).2.keys by rw [(extract_loop d).keys]; exact hk)
    refine ⟨v, hv, .inr ⟨?_, fun w hw => h ⟨w, hw⟩⟩⟩
    rcases (extract_loop d).specSound k v hv with h' | h'
    · exact absurd ⟨v, h'⟩ h
    · exact noSpecials_get? h'

/-- **C37** (partial): a special key that has only one value in the document is taken with that
value.  Missing: a special key given several times (`C37_null_overrides_fails`). -/
theorem C37_special_complete_partial (d : List (String × Py)) (k : String) (v : Py)
    (h : SpecialIn d k v) (hu : ∀ w, SpecialIn d k w → w = v) :
    (extractLeafKeys d).2.get? k = some v := by
  obtain ⟨w, hw, hw'⟩ := (extract_loop d).specSome k v h
  rw [hw, hu w hw']

/-- A document with nested settings, a special key below a section and values that are not
settings. -/
def demoDoc : List (String × Py) :=
  [("budget", .dict [("max_evaluations_total", .int 20), ("limits", .dict [("max_cost_total",
      .float (5 / 2))])]),
   ("root_directory", .str "results"),
   ("task_id", .str "None"),
   ("search", .dict [("searcher", .dict [("strategy", .str "hyperband"), ("eta", .int 3)])]),
   ("post_run_summary", .null)]

example : extractLeafKeys demoDoc =
    ([("max_evaluations_total", .int 20), ("max_cost_total", .float (5 / 2)),
      ("root_directory", .str "results")],
     [("run_pipeline", .null), ("pre_load_hooks", .null),
      ("searcher", .dict [("strategy", .str "hyperband"), ("eta", .int 3)]),
      ("pipeline_space", .null)]) := by
  simp [extractLeafKeys, demoDoc, extractLoop, extractNested, noSpecials, specialNames, Dict.keys,
    Dict.set, Dict.update, Py.isNoneText, Py.isNull]

example : LeafIn demoDoc "max_cost_total" (.float (5 / 2)) :=
  .under (k' := "budget") (List.mem_cons_self ..) (by decide)
    (.under (k' := "limits") (by simp; rfl) (by decide)
      (.here (List.mem_cons_self ..) (by decide) trivial))

example : SpecialIn demoDoc "searcher" (.dict [("strategy", .str "hyperband"), ("eta", .int 3)]) :=
  .under (k' := "search") (by simp [demoDoc]; rfl) (by decide)
    (.here (List.mem_cons_self ..) (by decide) rfl)

/-- **C37** fails for a name given at two levels: only the last value in the order of the document
is kept, without an error. -/
theorem C37_duplicate_fails : ∃ (d : List (String × Py)) (k : String) (v w : Py),
    LeafIn d k v ∧ LeafIn d k w ∧ v ≠ w ∧ (extractLeafKeys d).1 = [(k, w)] := by
  refine ⟨[("a", .dict [("task_id", .int 1)]), ("b", .dict [("task_id", .int 2)])], "task_id",
    .int 1, .int 2, ?_, ?_, by simp, ?_⟩
  · exact .under (k' := "a") (List.mem_cons_self ..) (by decide)
      (.here (List.mem_cons_self ..) (by decide) trivial)
  · exact .under (k' := "b") (by simp; rfl) (by decide)
      (.here (List.mem_cons_self ..) (by decide) trivial)
  · simp [extractLeafKeys, extractLoop, extractNested, noSpecials, specialNames, Dict.keys,
      Dict.set, Dict.update, Py.isNoneText, Py.isNull]

/-- **C37** fails for a special key that is given a value at one level and null at a later one: the
value is dropped. -/
theorem C37_null_overrides_fails : ∃ (d : List (String × Py)) (v : Py),
    SpecialIn d "searcher" v ∧ v ≠ .null ∧
    (extractLeafKeys d).2.get? "searcher" = some .null := by
  refine ⟨[("a", .dict [("searcher", .str "hyperband")]), ("searcher", .null)],
    .str "hyperband", ?_, by simp, ?_⟩
  · exact .under (k' := "a") (List.mem_cons_self ..) (by decide)
      (.here (List.mem_cons_self ..) (by decide) rfl)
  · simp [extractLeafKeys, extractLoop, extractNested, noSpecials, specialNames, Dict.keys,
      Dict.set, Dict.get?, Dict.update, Py.isNoneText]

end Verif.Args
