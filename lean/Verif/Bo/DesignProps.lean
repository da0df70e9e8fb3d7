import Verif.Bo.Model
import Verif.Space.EncodeLemmas
import Mathlib.Tactic.Set

/-!
# C78: the initial design
-/

namespace Verif.Bo

open Verif.Space

/-! ## Specification -/

/-- The configuration `c` is the decoded row: every encoded name has the decoded value of its
column, every constant its value. -/
def DecodedFrom (e : Encoder) (row : List ℝ) (c : Dict Val) : Prop :=
  (∀ (i : ℕ) (name : String) (t : Transformer), e.transformers[i]? = some (name, t) →
    c.get? name = (row[i]?).bind t.decode) ∧
  ∀ p ∈ e.constants, c.get? p.1 = some p.2

/-! ## Lemmas -/

theorem mapM_some_iff {α β : Type*} {f : α → Option β} {l : List α} {m : List β} :
    l.mapM f = some m ↔ List.Forall₂ (fun a b => f a = some b) l m := by
  induction l generalizing m with
  | nil =>
    simp only [List.mapM_nil, Option.pure_def, Option.some.injEq]
    constructor
    · rintro rfl; exact List.Forall₂.nil
    · intro h; cases h; rfl
  | cons a l ih =>
    rw [List.mapM_cons]
    constructor
    · intro h
      cases h1 : f a with
      | none => simp [h1] at h
      | some b =>
        cases h2 : l.mapM f with
        | none => simp [h1, h2] at h
        | some bs =>
          simp only [h1, h2, Option.bind_eq_bind, Option.bind_some, Option.pure_def,
            Option.some.injEq] at h
          subst h
          exact List.Forall₂.cons h1 (ih.mp h2)
    · intro h
      cases h with
      | cons h1 h2 => simp [h1, ih.mpr h2]

theorem decode_rows {e : Encoder} (hn : (e.transformers.keys ++ e.constants.keys).Nodup)
    (hne : e.transformers.keys ++ e.constants.keys ≠ []) {rows : List (List ℝ)}
    {configs : List (Dict Val)} (h : e.decode rows = some configs) :
    List.Forall₂ (DecodedFrom e) rows configs := by
  have hnt : e.transformers.keys.Nodup := (List.nodup_append.mp hn).1
  have hnc : e.constants.keys.Nodup := (List.nodup_append.mp hn).2.1
  unfold Encoder.decode at h
  cases hv : (e.transformers.mapM fun p => do
      let col ← e.decodeCol rows p.1 p.2
      return (p.1, col)) with
  | none => rw [hv] at h; simp at h
  | some values =>
    rw [hv] at h
    change Dict (List Val) at values
    simp only [Option.bind_eq_bind, Option.bind_some, Option.pure_def, Option.some.injEq] at h
    have hF := mapM_some_iff.mp hv
    have hvl : values.length = e.transformers.length := hF.length_eq.symm
    have hval : ∀ i (h1 : i < e.transformers.length) (h2 : i < values.length),
        values[i].1 = e.transformers[i].1 ∧
        List.Forall₂ (fun row v => (row[i]?).bind e.transformers[i].2.decode = some v) rows
          values[i].2 := by
      intro i h1 h2
      have h3 := (List.forall₂_iff_get.mp hF).2 i h1 h2
      simp only [List.get_eq_getElem, Option.bind_eq_bind, Option.pure_def,
        Option.bind_eq_some_iff, Option.some.injEq] at h3
      obtain ⟨col, hc1, hc2⟩ := h3
      rw [← hc2]
      refine ⟨rfl, ?_⟩
      have hidx : e.indexOf e.transformers[i].1 = i := by
        have hs : e.transformers = e.transformers.take i ++
            e.transformers[i] :: e.transformers.drop (i + 1) := by simp
        have := Encoder.indexOf_append (e := e) hnt hs
        rw [this, List.length_take]
        omega
      unfold Encoder.decodeCol at hc1
      rw [hidx] at hc1
      exact mapM_some_iff.mp hc1
    have hkeys : values.keys = e.transformers.keys := by
      apply List.ext_getElem
      · simp [Dict.keys, hvl]
      · intro i h1 h2
        simp only [Dict.keys, List.getElem_map]
        exact (hval i (by simpa [Dict.keys] using h2) (by simpa [Dict.keys] using h1)).1
    set consts : Dict (List Val) :=
      e.constants.map fun p => (p.1, List.replicate rows.length p.2) with hconsts
    have hck : consts.keys = e.constants.keys := by simp [Dict.keys, hconsts]
    have hupd : Dict.update values consts = values ++ consts := by
      apply Dict.update_disjoint
      · rw [hck]; exact hnc
      · intro k hk hk'
        rw [hck] at hk
        rw [hkeys] at hk'
        exact (List.nodup_append.mp hn).2.2 k hk' k hk rfl
    rw [hupd] at h
    set all : Dict (List Val) := values ++ consts with hallDef
    have hall : all.keys = e.transformers.keys ++ e.constants.keys := by
      have : all.keys = values.keys ++ consts.keys := by simp [Dict.keys, hallDef]
      rw [this, hkeys, hck]
    have hlen : ∀ p ∈ all, p.2.length = rows.length := by
      intro p hp
      rcases List.mem_append.mp hp with hp | hp
      · obtain ⟨i, hi, rfl⟩ := List.mem_iff_getElem.mp hp
        exact (hval i (by omega) hi).2.length_eq.symm
      · rw [hconsts, List.mem_map] at hp
        obtain ⟨q, _, rfl⟩ := hp
        simp
    have halln : all.keys.Nodup := by rw [hall]; exact hn
    have hallne : all ≠ [] := by
      rintro h
      rw [h] at hall
      exact hne hall.symm
    rw [Encoder.zipColumns_eq hallne hlen] at h
    rw [← h, List.forall₂_iff_get]
    refine ⟨by simp, ?_⟩
    intro i h1 h2
    simp only [List.get_eq_getElem, List.getElem_map, List.getElem_range]
    refine ⟨?_, ?_⟩
    · intro j name t hj
      obtain ⟨hj1, hj2⟩ := List.getElem?_eq_some_iff.mp hj
      rw [Encoder.row_get? h1 halln hlen]
      obtain ⟨e1, e2⟩ := hval j hj1 (by omega)
      have hmem : (name, values[j].2) ∈ all := by
        apply List.mem_append_left
        have : (name, values[j].2) = values[j] := by
          rw [hj2] at e1
          ext1
          · exact e1.symm
          · rfl
        rw [this]
        exact List.getElem_mem _
      rw [Dict.get?_of_mem halln hmem]
      simp only [Option.bind_some]
      have hl := e2.length_eq
      have := (List.forall₂_iff_get.mp e2).2 i h1 (by omega)
      simp only [List.get_eq_getElem, hj2] at this
      rw [this]
      exact List.getElem?_eq_getElem (by omega)
    · intro p hp
      rw [Encoder.row_get? h1 halln hlen]
      have hmem : (p.1, List.replicate rows.length p.2) ∈ all := by
        apply List.mem_append_right
        rw [hconsts]
        exact List.mem_map_of_mem (f := fun p : String × Val => (p.1, List.replicate rows.length p.2)) hp
      rw [Dict.get?_of_mem halln hmem]
      simp [h1]

namespace Dict'

theorem get?_set (d : Dict Val) (k : String) (v : Val) (k' : String) :
    Dict.get? (Dict.set d k v) k' = if k' = k then some v else Dict.get? d k' := by
  unfold Dict.set
  split_ifs with h1 h2 h2
  · subst h2
    induction d with
    | nil => simp [Dict.keys] at h1
    | cons p d ih =>
      simp only [Dict.keys, List.map_cons, List.mem_cons] at h1
      by_cases hp : p.1 = k'
      · simp [Dict.get?, hp]
      · have := ih (by
          rcases h1 with h | h
          · exact absurd h.symm hp
          · exact h)
        simp only [Dict.get?, List.map_cons, hp, if_false] at this ⊢
        rw [List.find?_cons]
        simpa [hp] using this
  · induction d with
    | nil => simp [Dict.keys] at h1
    | cons p d ih =>
      have hgoal : ∀ (d : Dict Val), Dict.get? (d.map fun p => if p.1 = k then (k, v) else p) k' =
          Dict.get? d k' := by
        intro d
        induction d with
        | nil => rfl
        | cons p d ih =>
          simp only [Dict.get?, List.map_cons, List.find?_cons] at ih ⊢
          by_cases hp : p.1 = k
          · have h3 : ¬ k = k' := fun h => h2 h.symm
            simp only [hp, if_true, h3, decide_false]
            exact ih
          · simp only [hp, if_false]
            by_cases h5 : p.1 = k'
            · simp [h5]
            · simp only [h5, decide_false]
              exact ih
      exact hgoal _
  · subst h2
    unfold Dict.get?
    rw [List.find?_append]
    have : d.find? (fun p => decide (p.1 = k')) = none := by
      rw [List.find?_eq_none]
      intro p hp
      simp only [decide_eq_true_eq]
      intro he
      exact h1 (he ▸ List.mem_map_of_mem hp)
    simp [this]
  · unfold Dict.get?
    rw [List.find?_append]
    have h3 : ¬ k = k' := fun h => h2 h.symm
    simp [h3]

theorem get?_update (d e : Dict Val) (hn : e.keys.Nodup) (k : String) :
    Dict.get? (Dict.update d e) k = (Dict.get? e k).or (Dict.get? d k) := by
  unfold Dict.update
  induction e generalizing d with
  | nil => simp [Dict.get?]
  | cons p e ih =>
    have hn' := hn
    simp only [Dict.keys, List.map_cons, List.nodup_cons] at hn'
    rw [List.foldl_cons, ih _ hn'.2, get?_set]
    by_cases hk : k = p.1
    · subst hk
      have : Dict.get? e p.1 = none := Dict.get?_none hn'.1
      rw [this]
      simp [Dict.get?]
    · have hk' : ¬ p.1 = k := fun h => hk h.symm
      simp only [hk, if_false]
      congr 1
      simp [Dict.get?, hk']

end Dict'

theorem targetFids_nodup {fids : Dict Fidelity} (hn : fids.keys.Nodup) {spec : FidSpec}
    (hs : ∀ m, spec = .mapping m → m.keys.Nodup) {target : Dict Val}
    (h : targetFids fids spec = some target) : target.keys.Nodup := by
  have hk : ∀ f : Fidelity → Val, Dict.keys (fids.map fun p => (p.1, f p.2)) = fids.keys := by
    intro f; simp [Dict.keys, Function.comp_def]
  cases spec with
  | min =>
    simp only [targetFids, Option.some.injEq] at h
    rw [← h, hk (fun f => .num f.lower)]; exact hn
  | max =>
    simp only [targetFids, Option.some.injEq] at h
    rw [← h, hk (fun f => .num f.upper)]; exact hn
  | sampled =>
    simp only [targetFids, Option.some.injEq] at h
    rw [← h, hk (fun f => .num f.draw)]; exact hn
  | number x =>
    cases fids with
    | nil => simp [targetFids] at h
    | cons p l =>
      cases l with
      | nil =>
        simp only [targetFids, Option.some.injEq] at h
        rw [← h]; simp [Dict.keys]
      | cons q l => simp [targetFids] at h
  | mapping m =>
    simp only [targetFids] at h
    split at h
    · simp at h
    · simp only [Option.some.injEq] at h
      rw [← h]; exact hs m rfl
  | other => simp [targetFids] at h

theorem mem_uniqueRows {rows : List (List ℝ)} {r : List ℝ} : r ∈ uniqueRows rows ↔ r ∈ rows := by
  simp [uniqueRows]

theorem uniqueRows_nodup (rows : List (List ℝ)) : (uniqueRows rows).Nodup :=
  Finset.sort_nodup _ _

theorem uniqueRows_sorted (rows : List (List ℝ)) : (uniqueRows rows).Pairwise (· ≤ ·) :=
  Finset.pairwise_sort _ _

theorem head_le {a b : ℝ} {r s : List ℝ} (h : a :: r ≤ b :: s) : a ≤ b := by
  rcases h.lt_or_eq with h | h
  · rcases List.cons_lt_cons_iff.mp h with h | h
    · exact le_of_lt h
    · exact h.1.le
  · simp only [List.cons.injEq] at h
    exact h.1.le

/-! ## C78 -/

/-- What an initial design consists of: the default configuration, if asked for, and the decoded
first `n` of the distinct sampled rows, all with the target fidelities. -/
theorem design_eq {hps : Dict DesignHp} {fids : Dict Fidelity} {ndims : ℕ} {e : Encoder}
    {sample : ℕ → Option (List (List ℝ))} {size : SampleSize} {first : Bool} {spec : FidSpec}
    {design : List (Dict Val)}
    (h : initialDesign hps fids ndims e sample size first spec = some design) :
    ∃ target, targetFids fids spec = some target ∧
      ((sampleSize ndims size = some none ∧
          design = if first then [defaultConfig hps target] else []) ∨
        ∃ n rows configs, sampleSize ndims size = some (some n) ∧ sample (n * 2) = some rows ∧
          e.decode ((uniqueRows rows).take n) = some configs ∧
          design = (if first then [defaultConfig hps target] else []) ++
            configs.map fun c => Dict.update c target) := by
  unfold initialDesign at h
  cases ht : targetFids fids spec with
  | none => simp [ht] at h
  | some target =>
    refine ⟨target, rfl, ?_⟩
    cases hz : sampleSize ndims size with
    | none => simp [ht, hz] at h
    | some o =>
      cases o with
      | none =>
        simp only [ht, hz, Option.bind_eq_bind, Option.bind_some, Option.some.injEq] at h
        exact Or.inl ⟨rfl, h.symm⟩
      | some n =>
        cases hr : sample (n * 2) with
        | none => simp [ht, hz, hr] at h
        | some rows =>
          cases hd : e.decode ((uniqueRows rows).take n) with
          | none => simp [ht, hz, hr, hd] at h
          | some configs =>
            simp only [ht, hz, hr, hd, Option.bind_eq_bind, Option.bind_some,
              Option.some.injEq] at h
            exact Or.inr ⟨n, rows, configs, rfl, hr, hd, h.symm⟩

/-- **C78, fidelity.** Every configuration of the design, the default included, has the requested
fidelity. -/
theorem C78_fidelity (hps : Dict DesignHp) (fids : Dict Fidelity) (ndims : ℕ) (e : Encoder)
    (sample : ℕ → Option (List (List ℝ))) (size : SampleSize) (first : Bool) (spec : FidSpec)
    (hn : fids.keys.Nodup) (hm : ∀ m, spec = .mapping m → m.keys.Nodup)
    (design : List (Dict Val))
    (h : initialDesign hps fids ndims e sample size first spec = some design)
    (c : Dict Val) (hc : c ∈ design) (name : String) (f : Fidelity) (hf : (name, f) ∈ fids) :
    match spec with
    | .min => c.get? name = some (.num f.lower)
    | .max => c.get? name = some (.num f.upper)
    | .sampled => c.get? name = some (.num f.draw)
    | .number x => c.get? name = some (.num x)
    | .mapping m => name ≠ "" → c.get? name = m.get? name ∧ (m.get? name).isSome
    | .other => False := by
  obtain ⟨target, ht, hd⟩ := design_eq h
  have htn := targetFids_nodup hn hm ht
  have hget : ∃ d, c = Dict.update d target := by
    rcases hd with ⟨-, rfl⟩ | ⟨n, rows, configs, -, -, -, rfl⟩
    · split at hc
      · simp only [List.mem_singleton] at hc
        exact ⟨_, hc⟩
      · simp at hc
    · rcases List.mem_append.mp hc with hc | hc
      · split at hc
        · simp only [List.mem_singleton] at hc
          exact ⟨_, hc⟩
        · simp at hc
      · obtain ⟨d, -, rfl⟩ := List.mem_map.mp hc
        exact ⟨d, rfl⟩
  obtain ⟨d, rfl⟩ := hget
  have key : ∀ v, (name, v) ∈ target → Dict.get? (Dict.update d target) name = some v := by
    intro v hv
    rw [Dict'.get?_update _ _ htn, Dict.get?_of_mem htn hv]
    rfl
  cases spec with
  | min =>
    simp only [targetFids, Option.some.injEq] at ht
    exact key _ (by rw [← ht]; exact List.mem_map.mpr ⟨_, hf, rfl⟩)
  | max =>
    simp only [targetFids, Option.some.injEq] at ht
    exact key _ (by rw [← ht]; exact List.mem_map.mpr ⟨_, hf, rfl⟩)
  | sampled =>
    simp only [targetFids, Option.some.injEq] at ht
    exact key _ (by rw [← ht]; exact List.mem_map.mpr ⟨_, hf, rfl⟩)
  | number x =>
    cases fids with
    | nil => simp at hf
    | cons p l =>
      cases l with
      | nil =>
        simp only [List.mem_singleton] at hf
        subst hf
        simp only [targetFids, Option.some.injEq] at ht
        exact key _ (by rw [← ht]; simp)
      | cons q l => simp [targetFids] at ht
  | mapping m =>
    intro hne
    simp only [targetFids] at ht
    split at ht
    · simp at ht
    · rename_i hany
      simp only [Option.some.injEq] at ht
      subst ht
      have hmem : name ∈ m.keys := by
        by_contra hnot
        apply hany
        rw [List.any_eq_true]
        exact ⟨name, List.mem_map_of_mem (f := Prod.fst) hf, by simp [hnot, hne]⟩
      obtain ⟨⟨k, v⟩, hp, rfl⟩ := List.mem_map.mp hmem
      simp only
      rw [key v hp, Dict.get?_of_mem htn hp]
      exact ⟨rfl, rfl⟩
  | other => simp [targetFids] at ht

/-- **C78, default first.** If asked for, the first configuration of the design has the default
of every hyperparameter that has one and is not a fidelity. -/
theorem C78_default_first (hps : Dict DesignHp) (hhps : hps.keys.Nodup) (fids : Dict Fidelity)
    (ndims : ℕ) (e : Encoder) (sample : ℕ → Option (List (List ℝ))) (size : SampleSize)
    (spec : FidSpec) (hn : fids.keys.Nodup) (hm : ∀ m, spec = .mapping m → m.keys = fids.keys)
    (design : List (Dict Val))
    (h : initialDesign hps fids ndims e sample size true spec = some design) :
    ∃ c rest, design = c :: rest ∧ ∀ name hp, (name, hp) ∈ hps → name ∉ fids.keys →
      c.get? name = some (hp.dflt.getD hp.draw) := by
  obtain ⟨target, ht, hd⟩ := design_eq h
  have htn := targetFids_nodup hn (fun m hm' => by rw [hm m hm']; exact hn) ht
  have htk : target.keys = fids.keys := by
    cases spec with
    | min =>
      simp only [targetFids, Option.some.injEq] at ht
      rw [← ht]; simp [Dict.keys, Function.comp_def]
    | max =>
      simp only [targetFids, Option.some.injEq] at ht
      rw [← ht]; simp [Dict.keys, Function.comp_def]
    | sampled =>
      simp only [targetFids, Option.some.injEq] at ht
      rw [← ht]; simp [Dict.keys, Function.comp_def]
    | number x =>
      cases fids with
      | nil => simp [targetFids] at ht
      | cons p l =>
        cases l with
        | nil =>
          simp only [targetFids, Option.some.injEq] at ht
          rw [← ht]; simp [Dict.keys]
        | cons q l => simp [targetFids] at ht
    | mapping m =>
      simp only [targetFids] at ht
      split at ht
      · simp at ht
      · simp only [Option.some.injEq] at ht
        rw [← ht]; exact hm m rfl
    | other => simp [targetFids] at ht
  have hfirst : ∃ rest, design = defaultConfig hps target :: rest := by
    rcases hd with ⟨-, rfl⟩ | ⟨n, rows, configs, -, -, -, rfl⟩
    · exact ⟨[], by simp⟩
    · exact ⟨_, rfl⟩
  obtain ⟨rest, rfl⟩ := hfirst
  refine ⟨_, rest, rfl, ?_⟩
  intro name hp hmem hnot
  unfold defaultConfig
  rw [Dict'.get?_update _ _ htn, Dict.get?_none (by rw [htk]; exact hnot)]
  simp only [Option.none_or]
  apply Dict.get?_of_mem
  · have : Dict.keys (hps.map fun p => (p.1, p.2.dflt.getD p.2.draw)) = hps.keys := by
      simp [Dict.keys, Function.comp_def]
    rw [this]; exact hhps
  · exact List.mem_map.mpr ⟨_, hmem, rfl⟩

/-- **C78, samples.** Besides the default, the design consists of decoded rows of the sampler: as
many as asked for if there are as many distinct rows, otherwise all of them, no row twice. -/
theorem C78_samples_partial (hps : Dict DesignHp) (fids : Dict Fidelity) (hf : fids.keys.Nodup)
    (ndims : ℕ) (e : Encoder) (hn : (e.transformers.keys ++ e.constants.keys).Nodup)
    (hne : e.transformers.keys ++ e.constants.keys ≠ [])
    (sample : ℕ → Option (List (List ℝ))) (size : SampleSize) (first : Bool) (spec : FidSpec)
    (hm : ∀ m, spec = .mapping m → m.keys.Nodup) (n : ℕ)
    (hs : match size with | .ndim => n = ndims | .count k => (n : ℤ) = k | .nothing => False)
    (rows : List (List ℝ)) (hr : sample (n * 2) = some rows) (design : List (Dict Val))
    (h : initialDesign hps fids ndims e sample size first spec = some design) :
    ∃ target chosen, targetFids fids spec = some target ∧ chosen.Nodup ∧ (∀ r ∈ chosen, r ∈ rows) ∧
      chosen.length = min n rows.toFinset.card ∧
      design.length = (if first then 1 else 0) + chosen.length ∧
      List.Forall₂ (fun row c => ∃ d, DecodedFrom e row d ∧
          ∀ k, c.get? k = (target.get? k).or (d.get? k)) chosen
        (design.drop (if first then 1 else 0)) := by
  obtain ⟨target, ht, hd⟩ := design_eq h
  have htn := targetFids_nodup hf hm ht
  rcases hd with ⟨hz, -⟩ | ⟨n', rows', configs, hz, hr', hdec, rfl⟩
  · cases size <;> simp [sampleSize] at hz hs
  · have hnn : n' = n := by
      cases size with
      | ndim => simp only [sampleSize, Option.some.injEq] at hz; rw [← hz]; exact hs.symm
      | count k =>
        simp only [sampleSize] at hz
        split at hz
        · simp only [Option.some.injEq] at hz
          simp only at hs
          omega
        · simp at hz
      | nothing => exact absurd hs (by simp)
    subst hnn
    rw [hr] at hr'
    simp only [Option.some.injEq] at hr'
    subst hr'
    have hF := decode_rows hn hne hdec
    have hl : ((uniqueRows rows).take n').length = min n' rows.toFinset.card := by
      rw [List.length_take]
      simp [uniqueRows]
    refine ⟨target, (uniqueRows rows).take n', ht,
      (uniqueRows_nodup rows).sublist (List.take_sublist _ _), ?_, hl, ?_, ?_⟩
    · intro r hr
      exact mem_uniqueRows.mp (List.mem_of_mem_take hr)
    · rw [List.length_append, List.length_map, ← hF.length_eq]
      cases first <;> simp
    · have hdrop : ((if first then [defaultConfig hps target] else []) ++
          configs.map fun c => Dict.update c target).drop (if first then 1 else 0) =
          configs.map fun c => Dict.update c target := by
        cases first <;> simp
      rw [hdrop, List.forall₂_map_right_iff]
      apply hF.imp
      intro row c hc
      exact ⟨c, hc, fun k => Dict'.get?_update _ _ htn k⟩

/-- **C78, rejected arguments.** A number of configurations that is not positive, a number as
fidelity without exactly one fidelity parameter, a mapping without one of the fidelities, and
anything else are rejected. -/
theorem C78_rejected (hps : Dict DesignHp) (fids : Dict Fidelity) (ndims : ℕ) (e : Encoder)
    (sample : ℕ → Option (List (List ℝ))) (size : SampleSize) (first : Bool) (spec : FidSpec)
    (h : (∃ n ≤ 0, size = .count n) ∨ (∃ x, spec = .number x ∧ fids.length ≠ 1) ∨
      (∃ m, spec = .mapping m ∧ ∃ name ∈ fids.keys, name ≠ "" ∧ name ∉ m.keys) ∨ spec = .other) :
    initialDesign hps fids ndims e sample size first spec = none := by
  have hfid : targetFids fids spec = none → initialDesign hps fids ndims e sample size first spec = none := by
    intro h
    unfold initialDesign
    simp [h]
  rcases h with ⟨n, hn, rfl⟩ | ⟨x, rfl, hl⟩ | ⟨m, rfl, name, hf, hne, hnot⟩ | rfl
  · unfold initialDesign
    cases targetFids fids spec with
    | none => rfl
    | some t => simp [sampleSize, hn]
  · apply hfid
    match fids, hl with
    | [], _ => rfl
    | [p], hl => exact absurd rfl hl
    | p :: q :: l, _ => rfl
  · apply hfid
    simp only [targetFids]
    rw [if_pos]
    rw [List.any_eq_true]
    exact ⟨name, hf, by simp [hne, hnot]⟩
  · exact hfid rfl

open Classical in
/-- The design takes the lexicographically smallest rows: if at least `n` of the distinct rows
start below `c`, all chosen rows do. -/
theorem take_below (rows : List (List ℝ)) (n : ℕ) (c : ℝ)
    (hne : ∀ r ∈ rows, r ≠ [])
    (h : n ≤ (rows.toFinset.filter fun r => ∃ a s, r = a :: s ∧ a < c).card) :
    ∀ r ∈ (uniqueRows rows).take n, ∃ a s, r = a :: s ∧ a < c := by
  set p : List ℝ → Prop := fun r => ∃ a s, r = a :: s ∧ a < c with hp
  have hs := uniqueRows_sorted rows
  have hdown : ∀ r ∈ uniqueRows rows, ∀ s ∈ uniqueRows rows, r ≤ s → p s → p r := by
    rintro r hr s hs hrs ⟨b, s', rfl, hb⟩
    obtain ⟨a, r', rfl⟩ := List.exists_cons_of_ne_nil (hne r (mem_uniqueRows.mp hr))
    exact ⟨a, r', rfl, lt_of_le_of_lt (head_le hrs) hb⟩
  by_contra hcon
  have hcon' : ∃ r ∈ (uniqueRows rows).take n, ¬ p r := by
    by_contra hno
    exact hcon fun r hr => by
      by_contra hnp
      exact hno ⟨r, hr, hnp⟩
  obtain ⟨r, hr, hnp⟩ := hcon'
  obtain ⟨i, hi, rfl⟩ := List.mem_iff_getElem.mp hr
  rw [List.length_take] at hi
  rw [List.getElem_take] at hnp
  have hiu : i < (uniqueRows rows).length := by omega
  have hsub : (rows.toFinset.filter p) ⊆ ((uniqueRows rows).take i).toFinset := by
    intro r hr
    rw [Finset.mem_filter, List.mem_toFinset] at hr
    obtain ⟨j, hj, rfl⟩ := List.mem_iff_getElem.mp (mem_uniqueRows.mpr hr.1)
    rw [List.mem_toFinset]
    have hji : j < i := by
      by_contra hge
      have hle : (uniqueRows rows)[i] ≤ (uniqueRows rows)[j] := by
        rcases Nat.lt_or_ge i j with hlt | hge'
        · exact List.pairwise_iff_getElem.mp hs i j hiu hj hlt
        · have : i = j := by omega
          subst this; exact le_refl _
      exact hnp (hdown _ (List.getElem_mem hiu) _ (List.getElem_mem hj) hle hr.2)
    rw [List.mem_take_iff_getElem]
    exact ⟨j, by omega, rfl⟩
  have hcard := Finset.card_le_card hsub
  have := (List.toFinset_card_le ((uniqueRows rows).take i)).trans (List.length_take_le _ _)
  have hge : n ≤ (rows.toFinset.filter p).card := by convert h
  omega

/-- **C78 fails** for the coverage of the space: the points of a Sobol sequence come in pairs, one
in the lower and one in the upper half of the first column. For every such sample without repeated
rows all points of the design lie in the lower half of the first column: nothing of the other half
is tried. -/
theorem C78_half_space_fails (n : ℕ) (rows : List (List ℝ)) (hl : rows.length = n * 2)
    (hd : rows.Nodup) (hne : ∀ r ∈ rows, r ≠ [])
    (hpair : ∀ i < n, ∃ j, (j = 2 * i ∨ j = 2 * i + 1) ∧
      ∃ a s, rows[j]? = some (a :: s) ∧ a < 1 / 2) :
    ((uniqueRows rows).take n).length = n ∧
      ∀ r ∈ (uniqueRows rows).take n, ∃ a s, r = a :: s ∧ a < 1 / 2 := by
  refine ⟨?_, take_below rows n _ hne ?_⟩
  · rw [List.length_take]
    simp only [uniqueRows, Finset.length_sort, List.toFinset_card_of_nodup hd, hl]
    omega
  · classical
    choose! j hj a s hr ha using hpair
    have hinj : ∀ x ∈ Finset.range n, ∀ y ∈ Finset.range n,
        (a x :: s x : List ℝ) = (a y :: s y : List ℝ) → x = y := by
      intro x hx y hy hxy
      rw [Finset.mem_range] at hx hy
      have h1 := hr x hx
      have h2 := hr y hy
      rw [← hxy] at h2
      obtain ⟨p1, q1⟩ := List.getElem?_eq_some_iff.mp h1
      obtain ⟨p2, q2⟩ := List.getElem?_eq_some_iff.mp h2
      have := (hd.getElem_inj_iff (hi := p1) (hj := p2)).mp (by rw [q1, q2])
      have hjx := hj x hx
      have hjy := hj y hy
      omega
    have := Finset.card_le_card_of_injOn (s := Finset.range n)
      (t := rows.toFinset.filter fun r => ∃ a s, r = a :: s ∧ a < 1 / 2)
      (fun x => (a x :: s x : List ℝ)) (by
        intro x hx
        rw [Finset.mem_coe, Finset.mem_range] at hx
        rw [Finset.mem_coe, Finset.mem_filter, List.mem_toFinset]
        exact ⟨List.mem_of_getElem? (hr x hx), _, _, rfl, ha x hx⟩) (by
        intro x hx y hy hxy
        exact hinj x hx y hy hxy)
    simpa using this

/-- **C78 fails** for the number of configurations: if the sampled rows repeat, there are fewer
than asked for. -/
theorem C78_fewer_fails (n : ℕ) (hn : 2 ≤ n) (row : List ℝ) :
    ((uniqueRows (List.replicate (n * 2) row)).take n).length = 1 := by
  have : (List.replicate (n * 2) row).toFinset = {row} := by
    apply List.toFinset_replicate_of_ne_zero
    omega
  simp only [uniqueRows, this, Finset.sort_singleton, List.length_take, List.length_cons,
    List.length_nil]
  omega

/-- Four points of a Sobol sequence in two columns meet the hypotheses of
`C78_half_space_fails`. -/
example : ([[0, 0], [1 / 2, 1 / 2], [3 / 4, 1 / 4], [1 / 4, 3 / 4]] : List (List ℝ)).length = 2 * 2 ∧
    ([[0, 0], [1 / 2, 1 / 2], [3 / 4, 1 / 4], [1 / 4, 3 / 4]] : List (List ℝ)).Nodup ∧
    ∀ i < 2, ∃ j, (j = 2 * i ∨ j = 2 * i + 1) ∧ ∃ a s,
      ([[0, 0], [1 / 2, 1 / 2], [3 / 4, 1 / 4], [1 / 4, 3 / 4]] : List (List ℝ))[j]? =
        some (a :: s) ∧ a < 1 / 2 := by
  refine ⟨rfl, by norm_num, ?_⟩
  intro i hi
  obtain rfl | rfl : i = 0 ∨ i = 1 := by omega
  · exact ⟨0, Or.inl rfl, 0, [0], rfl, by norm_num⟩
  · exact ⟨3, Or.inr rfl, 1 / 4, [3 / 4], rfl, by norm_num⟩

/-- A design of a space with one float parameter, one fidelity and a default. -/
example : ∃ design, initialDesign
    [("epochs", ⟨none, .num 3⟩), ("lr", ⟨some (.num (1 / 3)), .num 0⟩)]
    [("epochs", ⟨1, 10, 4⟩)] 1
    (Encoder.make [("lr", minMaxTransformer Domain.unitFloat)] [])
    (fun n => some (List.replicate n [1 / 2])) .ndim true .max = some design ∧
    ∀ c ∈ design, c.get? "epochs" = some (.num 10) := by
  have hs : (Encoder.make [("lr", minMaxTransformer Domain.unitFloat)] []).transformers =
      [("lr", minMaxTransformer Domain.unitFloat)] := by
    simp [Encoder.make, Dict.sorted]
  have hfu : Domain.unitFloat.fromUnit (1 / 2) = some (1 / 2) := by
    have hun : ¬ Domain.unitFloat.isUnitFloat := by simp [Domain.isUnitFloat, Domain.unitFloat]
    have hcu : Domain.unitFloat.card = none := by
      simp [Domain.unitFloat, Domain.card, Domain.card.byRound]
    unfold Domain.fromUnit
    rw [if_neg hun, hcu]
    simp [Domain.quantize, Domain.unitFloat, Domain.asDtype, Domain.roundIf]
  have : ∃ design, initialDesign
    [("epochs", ⟨none, .num 3⟩), ("lr", ⟨some (.num (1 / 3)), .num 0⟩)]
    [("epochs", ⟨1, 10, 4⟩)] 1
    (Encoder.make [("lr", minMaxTransformer Domain.unitFloat)] [])
    (fun n => some (List.replicate n [1 / 2])) .ndim true .max = some design := by
    have hu : uniqueRows (List.replicate 2 [(1 : ℝ) / 2]) = [[1 / 2]] := by
      unfold uniqueRows
      rw [List.toFinset_replicate_of_ne_zero (by norm_num), Finset.sort_singleton]
    unfold initialDesign
    simp only [targetFids, sampleSize, Option.bind_eq_bind, Option.bind_some, Nat.one_mul, hu,
      Encoder.decode, hs, Encoder.decodeCol, Encoder.indexOf]
    rw [one_div] at hfu
    simp [Dict.keys, minMaxTransformer, minMaxDecode, hfu]
  obtain ⟨design, hd⟩ := this
  refine ⟨design, hd, fun c hc => ?_⟩
  exact C78_fidelity _ _ _ _ _ _ _ .max (by simp [Dict.keys]) (by simp) design hd c hc "epochs"
    ⟨1, 10, 4⟩ (by simp)

end Verif.Bo
