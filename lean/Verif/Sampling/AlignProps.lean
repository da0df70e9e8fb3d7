import Verif.Sampling.PriorProps
import Verif.Space.EncodeProps

/-!
# C75: every parameter is sampled from its own prior
-/

namespace Verif.Sampling

open Verif.Space Verif.Space.Domain

/-! ## Lemmas -/

theorem priorParams_perm (space : Dict PriorHp) : (priorParams space).Perm space := by
  unfold priorParams
  have h := List.filter_append_perm (fun p : String × PriorHp => !p.2.isCat) space.sorted
  simp only [Bool.not_not] at h
  exact h.trans (Dict.sorted_perm space)

theorem PriorHp.Ok.domain {hp : PriorHp} (h : hp.Ok) : ∃ d, hp.domain = some d ∧ Declared d ∧
    d.isCategorical = false ∧ ∀ c conf, hp.center = some (c, conf) →
      IsValue d c ∧ 0 ≤ conf ∧ conf ≤ 1 := by
  cases hp with
  | numerical d dflt conf =>
    refine ⟨d, rfl, h.1, h.2.1, ?_⟩
    intro c conf' hc
    simp only [PriorHp.center, Option.map_eq_some_iff, Prod.mk.injEq] at hc
    obtain ⟨x, hx, rfl, rfl⟩ := hc
    exact ⟨h.2.2 x hx, by cases conf <;> norm_num [Confidence.score],
      by cases conf <;> norm_num [Confidence.score]⟩
  | categorical choices dflt conf =>
    refine ⟨indexDomain choices.length false, indices_eq _ _, indexDomain_declared h.1 _, rfl, ?_⟩
    intro c conf' hc
    simp only [PriorHp.center, Option.map_eq_some_iff, Prod.mk.injEq] at hc
    obtain ⟨i, hi, rfl, rfl⟩ := hc
    refine ⟨⟨by simp [indexDomain], ?_, fun _ => ⟨i, by simp⟩⟩,
      by cases conf <;> norm_num [Confidence.score],
      by cases conf <;> norm_num [Confidence.score]⟩
    simp only [indexDomain]
    have : (i : ℝ) + 1 ≤ choices.length := by exact_mod_cast h.2 i hi
    linarith

/-- The distribution of a parameter is over the unit interval. -/
theorem PriorHp.Ok.centered {hp : PriorHp} (h : hp.Ok) : ∃ d dd, hp.domain = some d ∧
    centeredOne d hp.center = some dd ∧ dd.domain = unitFloat ∧
    ∀ raw, hp.Drawable raw → 0 ≤ dd.dist.draw raw ∧ dd.dist.draw raw ≤ 1 := by
  obtain ⟨d, h1, h2, h3, h4⟩ := h.domain
  cases hc : hp.center with
  | none =>
    refine ⟨d, ⟨.uniform, unitFloat⟩, h1, rfl, rfl, ?_⟩
    intro raw hr
    exact hr hc
  | some p =>
    obtain ⟨c, conf⟩ := p
    obtain ⟨hv, h0, h1'⟩ := h4 c conf hc
    obtain ⟨loc, hl, -, -⟩ := toUnit_unit h2.shape hv
    refine ⟨d, ⟨.truncNormal loc (max (1 - conf) eps), unitFloat⟩, h1, ?_, rfl, ?_⟩
    · unfold centeredOne
      simp [h0, h1', h3, hl]
    · intro raw _
      exact ⟨le_min (le_max_right _ _) zero_le_one, min_le_right _ _⟩

theorem PriorHp.Ok.column {hp : PriorHp} (h : hp.Ok) : ∃ c, hp.column = some c ∧ Declared c := by
  cases hp with
  | numerical d dflt conf => exact ⟨unitFloat, rfl, declared_unitFloat⟩
  | categorical choices dflt conf =>
    exact ⟨indexDomain choices.length true, indices_eq _ _, indexDomain_declared h.1 _⟩

theorem PriorHp.Ok.transformer {hp : PriorHp} (h : hp.Ok) (name : String) :
    ∃ t, defaultTransformer [] name hp.toHP = some t ∧
      ∀ x, t.decode x = (match (generalizing := false) hp with
        | .numerical d _ _ => (d.fromUnit x).map .num
        | .categorical choices _ _ => catDecode choices x) := by
  cases hp with
  | numerical d dflt conf => exact ⟨minMaxTransformer d, rfl, fun _ => rfl⟩
  | categorical choices dflt conf =>
    refine ⟨catTransformer choices, ?_, fun _ => rfl⟩
    have : choices.length > 0 := by have := h.1; omega
    simp [defaultTransformer, PriorHp.toHP, Dict.get?, this]

/-- The value a parameter takes is always a value. -/
theorem PriorHp.Ok.valueFrom {hp g : PriorHp} (h : hp.Ok) (hg : g.Ok) {raw : ℝ} (hr : g.Drawable raw) :
    ∃ v, valueFrom hp g raw = some v := by
  obtain ⟨d, dd, h1, h2, h3, h4⟩ := hg.centered
  obtain ⟨c, h5, h6⟩ := h.column
  obtain ⟨h7, h8⟩ := h4 raw hr
  obtain ⟨x, hx, hxv⟩ := fromUnit_value h6.shape h7 h8
  unfold Sampling.valueFrom
  simp only [h1, h2, h5, h3, cast_unit h6.shape, hx, Option.bind_eq_bind, Option.bind_some]
  cases hp with
  | numerical dom dflt conf =>
    simp only [PriorHp.column, Option.some.injEq] at h5
    subst h5
    obtain ⟨y, hy, -⟩ := fromUnit_value h.1.shape (by simpa [unitFloat] using hxv.1)
      (by simpa [unitFloat] using hxv.2.1)
    exact ⟨.num y, by simp [hy]⟩
  | categorical choices dflt conf =>
    simp only [PriorHp.column, indices_eq, Option.some.injEq] at h5
    subst h5
    obtain ⟨n, hn⟩ := hxv.2.2 rfl
    have h0 := hxv.1
    have h1' := hxv.2.1
    simp only [indexDomain] at h0 h1'
    subst hn
    have hn0 : 0 ≤ n := by exact_mod_cast h0
    have hn1 : n < choices.length := by
      have : (n : ℝ) < choices.length := by linarith
      exact_mod_cast this
    obtain ⟨m, rfl⟩ := Int.eq_ofNat_of_zero_le hn0
    have : catDecode choices (((m : ℤ)) : ℝ) = choices[m]? := by
      have := catDecode_nat choices m
      exact_mod_cast this
    simp only [this]
    exact ⟨_, List.getElem?_eq_getElem (by omega)⟩

theorem mapM_forall₂ {α β : Type*} {f : α → Option β} {l : List α} {m : List β} :
    l.mapM f = some m ↔ List.Forall₂ (fun a b => f a = some b) l m := by
  induction l generalizing m with
  | nil =>
    simp only [List.mapM_nil, Option.pure_def, Option.some.injEq]
    constructor
    · rintro rfl; exact List.Forall₂.nil
    · intro h; cases h; rfl
  | cons a l ih =>
    rw [List.mapM_cons]
    constructor
    · intro h
      cases h1 : f a with
      | none => simp [h1] at h
      | some b =>
        cases h2 : l.mapM f with
        | none => simp [h1, h2] at h
        | some bs =>
          simp only [h1, h2, Option.bind_eq_bind, Option.bind_some, Option.pure_def,
            Option.some.injEq] at h
          subst h
          exact List.Forall₂.cons h1 (ih.mp h2)
    · intro h
      cases h with
      | cons h1 h2 => simp [h1, ih.mpr h2]

theorem mapM_exists {α β : Type*} {f : α → Option β} {l : List α}
    (h : ∀ a ∈ l, ∃ b, f a = some b) : ∃ m, l.mapM f = some m := by
  induction l with
  | nil => exact ⟨[], rfl⟩
  | cons a l ih =>
    obtain ⟨m, hm⟩ := ih (fun x hx => h x (by simp [hx]))
    obtain ⟨b, hb⟩ := h a (by simp)
    exact ⟨b :: m, by simp [hb, hm]⟩

/-- A decoded row: every name has the decoded value of its column. -/
theorem decode_row {ts : Dict Transformer} (hn : ts.keys.Nodup) (hne : ts ≠ []) {row : List ℝ}
    {vals : List Val} (h : List.Forall₂ (fun (p : (String × Transformer) × ℝ) v =>
      p.1.2.decode p.2 = some v) (ts.zip row) vals) (hl : row.length = ts.length) :
    ∃ config, (Encoder.mk ts []).decode [row] = some [config] ∧
      ∀ (i : ℕ) (name : String) (t : Transformer) (v : Val), ts[i]? = some (name, t) → vals[i]? = some v →
        config.get? name = some v := by
  have hvl : vals.length = ts.length := by
    rw [← h.length_eq, List.length_zip, hl, min_self]
  set values : Dict (List Val) := List.zipWith (fun (p : String × Transformer) v => (p.1, [v])) ts vals
    with hvalues
  have hcols : (ts.mapM fun p => do
      let col ← (Encoder.mk ts []).decodeCol [row] p.1 p.2
      return (p.1, col)) = some values := by
    rw [mapM_forall₂, List.forall₂_iff_get]
    refine ⟨by simp [hvalues, hvl], ?_⟩
    intro i h1 h2
    have hidx : (Encoder.mk ts []).indexOf ts[i].1 = i := by
      have hs : ts = ts.take i ++ ts[i] :: ts.drop (i + 1) := by simp
      have := Encoder.indexOf_append (e := Encoder.mk ts []) hn hs
      rw [this, List.length_take]
      omega
    have hcell := (List.forall₂_iff_get.mp h).2 i (by simp; omega) (by omega)
    simp only [List.get_eq_getElem, List.getElem_zip] at hcell
    have hrow : row[i]? = some row[i] := List.getElem?_eq_getElem (by omega)
    have hcol : (Encoder.mk ts []).decodeCol [row] ts[i].1 ts[i].2 = some [vals[i]] := by
      unfold Encoder.decodeCol
      simp [hidx, hrow, hcell]
    simp only [List.get_eq_getElem, hcol, Option.bind_eq_bind, Option.bind_some, Option.pure_def,
      hvalues, List.getElem_zipWith]
  have hvn : values ≠ [] := by
    intro he
    have := congrArg List.length he
    simp only [hvalues, List.length_zipWith, hvl, min_self, List.length_nil,
      List.length_eq_zero_iff] at this
    exact hne this
  have hv1 : ∀ p ∈ values, p.2.length = 1 := by
    intro p hp
    obtain ⟨i, hi, rfl⟩ := List.mem_iff_getElem.mp hp
    simp [hvalues]
  have hkeys : values.keys = ts.keys := by
    apply List.ext_getElem
    · simp [Dict.keys, hvalues, hvl]
    · intro i h1 h2
      simp [Dict.keys, hvalues]
  refine ⟨values.filterMap fun p => (p.2[0]?).map fun v => (p.1, v), ?_, ?_⟩
  · unfold Encoder.decode
    rw [hcols]
    simp only [Option.bind_eq_bind, Option.bind_some, List.map_nil, Option.pure_def]
    have : Dict.update values [] = values := rfl
    rw [this, Encoder.zipColumns_eq hvn hv1]
    simp
  · intro i name t v h1 h2
    rw [Encoder.row_get? (n := 1) (by omega) (hkeys ▸ hn) hv1]
    have hmem : (name, [v]) ∈ values := by
      obtain ⟨hi, h1⟩ := List.getElem?_eq_some_iff.mp h1
      obtain ⟨hj, h2⟩ := List.getElem?_eq_some_iff.mp h2
      rw [List.mem_iff_getElem]
      refine ⟨i, by simp only [hvalues, List.length_zipWith]; omega, ?_⟩
      simp [hvalues, h1, h2]
    rw [Dict.get?_of_mem (hkeys ▸ hn) hmem]
    simp

/-! ## C75 -/

/-- **C75, what happens.** The parameter in position `i` of the alphabetical order takes a value
sampled from the prior of the parameter in position `i` of the order "numerical parameters, then
categorical parameters". -/
theorem C75_columns (space : Dict PriorHp) (hn : space.keys.Nodup) (hne : space ≠ [])
    (hok : ∀ p ∈ space, p.2.Ok) (raws : String → ℝ)
    (hr : ∀ p ∈ space, p.2.Drawable (raws p.1)) :
    ∃ config, samplePrior space raws = some config ∧
      ∀ (i : ℕ) (p q : String × PriorHp), space.sorted[i]? = some p →
        (priorParams space)[i]? = some q →
        config.get? p.1 = valueFrom p.2 q.2 (raws q.1) := by
  have hperm := priorParams_perm space
  generalize hP : priorParams space = P at hperm
  have hsorted : P.sorted = space.sorted :=
    (Dict.sorted_eq_of_perm hn hperm.symm).symm
  have hPn : P.keys.Nodup := ((hperm.map Prod.fst).nodup_iff).mpr hn
  set S := space.sorted with hS
  have hSperm : S.Perm space := Dict.sorted_perm space
  have hPok : ∀ q ∈ P, q.2.Ok := fun q hq => hok q (hperm.mem_iff.mp hq)
  have hSok : ∀ q ∈ S, q.2.Ok := fun q hq => hok q (hSperm.mem_iff.mp hq)
  have hlen : P.length = S.length := by rw [hperm.length_eq, hSperm.length_eq]
  -- the prior
  obtain ⟨doms, hdoms⟩ := mapM_exists (l := P) (f := fun p => p.2.domain) (by
    intro p hp
    obtain ⟨d, -, h, -⟩ := (hPok p hp).centered
    exact ⟨d, h⟩)
  have hdF := mapM_forall₂.mp hdoms
  have hdl : doms.length = P.length := hdF.length_eq.symm
  obtain ⟨prior, hprior⟩ := mapM_exists (l := doms.zip (P.map fun p => p.2.center))
    (f := fun p => centeredOne p.1 p.2) (by
      intro p hp
      obtain ⟨i, hi, rfl⟩ := List.mem_iff_getElem.mp hp
      simp only [List.length_zip, List.length_map] at hi
      have hiP : i < P.length := by omega
      have hid : i < doms.length := by omega
      simp only [List.getElem_zip, List.getElem_map]
      obtain ⟨d, dd, h1, h2, -⟩ := (hPok P[i] (List.getElem_mem hiP)).centered
      have := (List.forall₂_iff_get.mp hdF).2 i hiP hid
      simp only [List.get_eq_getElem, h1, Option.some.injEq] at this
      rw [← this]
      exact ⟨dd, h2⟩)
  have hprF := mapM_forall₂.mp hprior
  have hprl : prior.length = P.length := by
    rw [← hprF.length_eq, List.length_zip, List.length_map, hdl, min_self]
  have hpriori : ∀ i (h1 : i < P.length) (h2 : i < prior.length), ∃ d,
      P[i].2.domain = some d ∧ centeredOne d P[i].2.center = some prior[i] ∧
      prior[i].domain = unitFloat ∧ 0 ≤ prior[i].dist.draw (raws P[i].1) ∧
      prior[i].dist.draw (raws P[i].1) ≤ 1 := by
    intro i h1 h2
    obtain ⟨d, dd, e1, e2, e3, e4⟩ := (hPok P[i] (List.getElem_mem h1)).centered
    have t1 := (List.forall₂_iff_get.mp hdF).2 i h1 (by omega)
    simp only [List.get_eq_getElem, e1, Option.some.injEq] at t1
    have t2 := (List.forall₂_iff_get.mp hprF).2 i (by simp; omega) h2
    simp only [List.get_eq_getElem, List.getElem_zip, List.getElem_map, ← t1, e2,
      Option.some.injEq] at t2
    refine ⟨d, e1, t2 ▸ e2, t2 ▸ e3, ?_⟩
    rw [← t2]
    exact e4 _ (hr _ (hperm.mem_iff.mp (List.getElem_mem h1)))
  have hfrom : fromParameters P = some prior := by
    unfold fromParameters makeCentered
    simp only [hdoms, Option.bind_eq_bind, Option.bind_some, List.length_map, hdl, ne_eq,
      not_true_eq_false, if_false]
    exact hprior
  -- the columns
  obtain ⟨cols, hcols⟩ := mapM_exists (l := S) (f := fun p => p.2.column) (by
    intro p hp
    obtain ⟨c, h, -⟩ := (hSok p hp).column
    exact ⟨c, h⟩)
  have hcF := mapM_forall₂.mp hcols
  have hcl : cols.length = S.length := hcF.length_eq.symm
  have hcolumns : columns P = some cols := by
    unfold columns
    rw [hsorted]
    exact hcols
  -- the encoder
  have hsm : (Dict.sorted (P.map fun p => (p.1, p.2.toHP))) = S.map fun p => (p.1, p.2.toHP) := by
    have e1 : Dict.sorted (P.map fun p => (p.1, p.2.toHP)) =
        Dict.sorted (S.map fun p => (p.1, p.2.toHP)) := by
      apply Dict.sorted_eq_of_perm
      · have : Dict.keys (P.map fun p => (p.1, p.2.toHP)) = P.keys := by
          simp [Dict.keys, Function.comp_def]
        rw [this]; exact hPn
      · exact (hperm.trans hSperm.symm).map _
    rw [e1]
    unfold Dict.sorted
    apply List.mergeSort_of_pairwise
    rw [List.pairwise_map]
    exact (Dict.sorted_pairwise space).imp (by intro a b h; simpa using h)
  obtain ⟨(ts : Dict Transformer), hts⟩ := mapM_exists (l := S.map fun p => (p.1, p.2.toHP))
    (f := fun p : String × HP => do
      let t ← defaultTransformer [] p.1 p.2
      return (p.1, t)) (by
      intro p hp
      obtain ⟨q, hq, rfl⟩ := List.mem_map.mp hp
      obtain ⟨t, ht, -⟩ := (hSok q hq).transformer q.1
      exact ⟨(q.1, t), by simp [ht]⟩)
  have htF := mapM_forall₂.mp hts
  have htl : ts.length = S.length := by rw [← htF.length_eq, List.length_map]
  have htsi : ∀ i (h1 : i < S.length) (h2 : i < ts.length), ts[i].1 = S[i].1 ∧
      defaultTransformer [] S[i].1 S[i].2.toHP = some ts[i].2 := by
    intro i h1 h2
    have := (List.forall₂_iff_get.mp htF).2 i (by simpa using h1) h2
    simp only [List.get_eq_getElem, List.getElem_map, Option.bind_eq_bind, Option.pure_def] at this
    cases ht : defaultTransformer [] S[i].1 S[i].2.toHP with
    | none => rw [ht] at this; simp at this
    | some t =>
      rw [ht] at this
      simp only [Option.bind_some, Option.some.injEq] at this
      rw [← this]
      exact ⟨rfl, rfl⟩
  have htkeys : ts.keys = S.keys := by
    apply List.ext_getElem
    · simp [Dict.keys, htl]
    · intro i h1 h2
      simp only [Dict.keys, List.getElem_map]
      exact (htsi i (by simpa [Dict.keys] using h2) (by simpa [Dict.keys] using h1)).1
  have htn : ts.keys.Nodup := by rw [htkeys]; exact Dict.sorted_keys_nodup hn
  have htsort : ts.sorted = ts := by
    unfold Dict.sorted
    apply List.mergeSort_of_pairwise
    have hp : (S.keys).Pairwise (· ≤ ·) := by
      unfold Dict.keys
      rw [List.pairwise_map]
      exact Dict.sorted_pairwise space
    rw [← htkeys] at hp
    unfold Dict.keys at hp
    rw [List.pairwise_map] at hp
    exact hp.imp (by intro a b h; simpa using h)
  have henc : Encoder.default (P.map fun p => (p.1, p.2.toHP)) [] [] = some ⟨ts, []⟩ := by
    unfold Encoder.default
    simp only [Dict.keys, List.map_nil, List.not_mem_nil, false_and, decide_false, List.any_nil,
      Bool.false_eq_true, if_false, List.any_eq_true, and_false, exists_false]
    rw [hsm, hts]
    simp [Encoder.make, htsort]
  -- the values of the cells
  have hcell : ∀ i (h1 : i < S.length) (h2 : i < P.length) (h3 : i < prior.length)
      (h4 : i < cols.length) (h5 : i < ts.length), ∃ x v,
      cols[i].cast (prior[i].dist.draw (raws P[i].1)) prior[i].domain = some x ∧
      ts[i].2.decode x = some v ∧ valueFrom S[i].2 P[i].2 (raws P[i].1) = some v := by
    intro i h1 h2 h3 h4 h5
    obtain ⟨d, e1, e2, e3, e4, e5⟩ := hpriori i h2 h3
    have hok' := hSok S[i] (List.getElem_mem h1)
    have hcol := (List.forall₂_iff_get.mp hcF).2 i h1 h4
    simp only [List.get_eq_getElem] at hcol
    obtain ⟨c, hc1, hc2⟩ := hok'.column
    rw [hcol] at hc1
    simp only [Option.some.injEq] at hc1
    subst hc1
    obtain ⟨x, hx, -⟩ := fromUnit_value hc2.shape e4 e5
    have hcast : cols[i].cast (prior[i].dist.draw (raws P[i].1)) prior[i].domain = some x := by
      rw [e3, cast_unit hc2.shape, hx]
    obtain ⟨v, hv⟩ := hok'.valueFrom (hPok P[i] (List.getElem_mem h2))
      (hr _ (hperm.mem_iff.mp (List.getElem_mem h2)))
    refine ⟨x, v, hcast, ?_, hv⟩
    obtain ⟨t, ht1, ht2⟩ := hok'.transformer S[i].1
    rw [(htsi i h1 h5).2] at ht1
    simp only [Option.some.injEq] at ht1
    rw [ht1, ht2]
    unfold valueFrom at hv
    simp only [e1, e2, hcol, hcast, Option.bind_eq_bind, Option.bind_some] at hv
    exact hv
  -- the row
  obtain ⟨row, hrow⟩ := mapM_exists
    (l := (List.zipWith (fun (d : DistDom) r => d.dist.draw r) prior (P.map fun p => raws p.1)).zip
      ((prior.map (·.domain)).zip cols)) (f := fun (v, f, t) => Domain.cast t v f) (by
      intro p hp
      obtain ⟨i, hi, rfl⟩ := List.mem_iff_getElem.mp hp
      simp only [List.length_zip, List.length_zipWith, List.length_map] at hi
      simp only [List.getElem_zip, List.getElem_zipWith, List.getElem_map]
      obtain ⟨x, v, hx, -⟩ := hcell i (by omega) (by omega) (by omega) (by omega) (by omega)
      exact ⟨x, hx⟩)
  have hrF := mapM_forall₂.mp hrow
  have hrl : row.length = S.length := by
    rw [← hrF.length_eq]
    simp only [List.length_zip, List.length_zipWith, List.length_map]
    omega
  have hprow : priorRow prior (P.map fun p => raws p.1) cols = some row := by
    unfold priorRow translate
    rw [if_neg, if_neg]
    · exact hrow
    · simp only [List.length_zipWith, List.length_map]; omega
    · simp only [List.length_zipWith, List.length_map]; omega
  obtain ⟨vals, hvals⟩ := mapM_exists (l := ts.zip row)
    (f := fun p : (String × Transformer) × ℝ => p.1.2.decode p.2) (by
      intro p hp
      obtain ⟨i, hi, rfl⟩ := List.mem_iff_getElem.mp hp
      simp only [List.length_zip] at hi
      obtain ⟨x, v, hx, hv, -⟩ := hcell i (by omega) (by omega) (by omega) (by omega) (by omega)
      have := (List.forall₂_iff_get.mp hrF).2 i
        (by simp only [List.length_zip, List.length_zipWith, List.length_map]; omega) (by omega)
      simp only [List.get_eq_getElem, List.getElem_zip, List.getElem_zipWith, List.getElem_map,
        hx, Option.some.injEq] at this
      simp only [List.getElem_zip, ← this]
      exact ⟨v, hv⟩)
  have hvF := mapM_forall₂.mp hvals
  have htne : ts ≠ [] := by
    intro he
    rw [he] at htl
    apply hne
    have := hSperm.length_eq
    rw [← htl] at this
    exact List.length_eq_zero_iff.mp this.symm
  obtain ⟨config, hc1, hc2⟩ := decode_row htn htne hvF (by omega)
  refine ⟨config, ?_, ?_⟩
  · unfold samplePrior
    simp only [hP, hfrom, henc, hcolumns, hprow, hc1, Option.bind_eq_bind, Option.bind_some,
      List.head?_cons]
  · intro i p q h1 h2
    obtain ⟨hi, rfl⟩ := List.getElem?_eq_some_iff.mp h1
    obtain ⟨hj, rfl⟩ := List.getElem?_eq_some_iff.mp h2
    obtain ⟨x, v, hx, hv, hvf⟩ := hcell i hi hj (by omega) (by omega) (by omega)
    rw [hvf]
    have hti := (htsi i hi (by omega)).1
    rw [← hti]
    have hvl : vals.length = ts.length := by
      rw [← hvF.length_eq, List.length_zip]; omega
    apply hc2 i ts[i].1 ts[i].2 v (List.getElem?_eq_getElem (by omega))
    have hr1 := (List.forall₂_iff_get.mp hrF).2 i
        (by simp only [List.length_zip, List.length_zipWith, List.length_map]; omega) (by omega)
    simp only [List.get_eq_getElem, List.getElem_zip, List.getElem_zipWith, List.getElem_map,
        hx, Option.some.injEq] at hr1
    have hv1 := (List.forall₂_iff_get.mp hvF).2 i (by simp only [List.length_zip]; omega) (by omega)
    simp only [List.get_eq_getElem, List.getElem_zip, ← hr1, hv, Option.some.injEq] at hv1
    rw [hv1]
    exact List.getElem?_eq_getElem (by omega)

/-- The two orders agree exactly if no categorical parameter comes before a numerical one in the
alphabet. -/
theorem C75_aligned_iff (space : Dict PriorHp) (hn : space.keys.Nodup) :
    priorParams space = space.sorted ↔
      ∀ p ∈ space, ∀ q ∈ space, p.2.isCat = false → q.2.isCat = true → p.1 < q.1 := by
  have hperm := Dict.sorted_perm space
  constructor
  · intro h p hp q hq hpc hqc
    have hpw := Dict.sorted_pairwise space
    rw [← h] at hpw
    unfold priorParams at hpw
    rw [List.pairwise_append] at hpw
    have hle := hpw.2.2 p (by simp [hperm.mem_iff.mpr hp, hpc]) q (by simp [hperm.mem_iff.mpr hq, hqc])
    apply lt_of_le_of_ne hle
    intro he
    have := List.inj_on_of_nodup_map hn hp hq he
    rw [this, hqc] at hpc
    simp at hpc
  · intro h
    have hs : (priorParams space).Pairwise (fun a b => a.1 ≤ b.1) := by
      unfold priorParams
      rw [List.pairwise_append]
      refine ⟨(Dict.sorted_pairwise space).filter _, (Dict.sorted_pairwise space).filter _, ?_⟩
      intro a ha b hb
      simp only [List.mem_filter, Bool.not_eq_eq_eq_not, Bool.not_true] at ha hb
      exact (h a (hperm.mem_iff.mp ha.1) b (hperm.mem_iff.mp hb.1) ha.2 hb.2).le
    have e1 : (priorParams space).sorted = priorParams space := by
      unfold Dict.sorted
      apply List.mergeSort_of_pairwise
      exact hs.imp (by intro a b h; simpa using h)
    rw [← e1]
    exact (Dict.sorted_eq_of_perm hn (priorParams_perm space).symm).symm

/-- **C75 (proved part).** If in the alphabet all numerical parameters come before all categorical
ones, every parameter is sampled from its own prior, with its own draw.  Missing: the other
spaces, see `C75_mixed_up_fails`. -/
theorem C75_own_prior_partial (space : Dict PriorHp) (hn : space.keys.Nodup) (hne : space ≠ [])
    (hok : ∀ p ∈ space, p.2.Ok)
    (hord : ∀ p ∈ space, ∀ q ∈ space, p.2.isCat = false → q.2.isCat = true → p.1 < q.1)
    (raws : String → ℝ) (hr : ∀ p ∈ space, p.2.Drawable (raws p.1)) :
    ∃ config, samplePrior space raws = some config ∧
      ∀ p ∈ space, config.get? p.1 = ownValue p.2 (raws p.1) ∧ (config.get? p.1).isSome := by
  obtain ⟨config, h1, h2⟩ := C75_columns space hn hne hok raws hr
  refine ⟨config, h1, fun p hp => ?_⟩
  obtain ⟨i, hi⟩ := List.mem_iff_getElem?.mp ((Dict.sorted_perm space).mem_iff.mpr hp)
  have := h2 i p p hi (by rw [(C75_aligned_iff space hn).mpr hord]; exact hi)
  refine ⟨this, ?_⟩
  obtain ⟨v, hv⟩ := (hok p hp).valueFrom (hok p hp) (hr p hp)
  rw [this, hv]
  rfl

/-- An activation function with a default and a learning rate without one. -/
noncomputable def mixedSpace : Dict PriorHp :=
  [("activation", .categorical [.str "relu", .str "tanh"] (some 0) .high),
    ("lr", .numerical unitFloat none .low)]

theorem mixed_sorted : mixedSpace.sorted = mixedSpace := by
  unfold Dict.sorted
  apply List.mergeSort_of_pairwise
  simp only [mixedSpace, List.pairwise_cons, List.mem_singleton, forall_eq, List.not_mem_nil,
    IsEmpty.forall_iff, implies_true, List.Pairwise.nil, and_true]
  decide +kernel

theorem mixed_priorParams : priorParams mixedSpace =
    [("lr", .numerical unitFloat none .low),
      ("activation", .categorical [.str "relu", .str "tanh"] (some 0) .high)] := by
  unfold priorParams
  simp only [mixed_sorted]
  rfl

/-- **C75 fails** for spaces in which a categorical parameter comes first in the alphabet: the
learning rate, declared without default, is drawn from the prior around the default activation,
concentrated at its lower bound, and the activation, declared with the first choice as a default
of high confidence, is drawn uniformly. -/
theorem C75_mixed_up_fails (raws : String → ℝ) (h0 : 0 ≤ raws "lr") (h1 : raws "lr" < 1) :
    (∀ p ∈ mixedSpace, p.2.Ok ∧ p.2.Drawable (raws p.1)) ∧
    ∃ config, samplePrior mixedSpace raws = some config ∧
      config.get? "lr" = some (.num (min (max (raws "activation" * (1 / 4)) 0) 1)) ∧
      config.get? "activation" = some (.str (if raws "lr" < 1 / 2 then "relu" else "tanh")) ∧
      ownValue (.numerical unitFloat none .low) (raws "lr") = some (.num (raws "lr")) := by
  have hcu : unitFloat.card = none := by simp [unitFloat, Domain.card, card.byRound]
  have hun : ¬ unitFloat.isUnitFloat := declared_unitFloat.shape.not_unitFloat
  have hfu : ∀ u, unitFloat.fromUnit u = some u := by
    intro u
    unfold fromUnit
    rw [if_neg hun, hcu]
    simp [quantize, unitFloat, asDtype, roundIf]
  have hok : ∀ p ∈ mixedSpace, p.2.Ok ∧ p.2.Drawable (raws p.1) := by
    intro p hp
    simp only [mixedSpace, List.mem_cons, List.not_mem_nil, or_false] at hp
    rcases hp with rfl | rfl
    · refine ⟨⟨by simp, by simp⟩, ?_⟩
      intro hc
      simp [PriorHp.center] at hc
    · exact ⟨⟨declared_unitFloat, rfl, by simp⟩, fun _ => ⟨h0, h1.le⟩⟩
  obtain ⟨config, e1, e2⟩ := C75_columns mixedSpace (by simp [mixedSpace, Dict.keys])
    (by simp [mixedSpace]) (fun p hp => (hok p hp).1) raws (fun p hp => (hok p hp).2)
  rw [mixed_sorted, mixed_priorParams] at e2
  refine ⟨hok, config, e1, ?_, ?_, ?_⟩
  · rw [e2 1 ("lr", .numerical unitFloat none .low) ("activation", .categorical
      [.str "relu", .str "tanh"] (some 0) .high) rfl rfl]
    have hu := indexDomain_toUnit (k := 2) (le_refl _) false (i := 0) (by norm_num)
    have hc : centeredOne (indexDomain 2 false) (some (((0 : ℕ) : ℝ), Confidence.high.score)) =
        some ⟨.truncNormal 0 (1 / 4), unitFloat⟩ := by
      unfold centeredOne
      have hcat : (indexDomain 2 false).isCategorical = false := rfl
      simp only [hcat, hu]
      norm_num [Confidence.score, eps]
    unfold valueFrom
    simp only [PriorHp.domain, List.length_cons, List.length_nil, Nat.zero_add, Nat.reduceAdd,
      indices_eq, PriorHp.center, Option.map_some, hc, PriorHp.column, Option.bind_eq_bind,
      Option.bind_some, cast_unit declared_unitFloat.shape, hfu, Dist.draw, add_zero]
  · rw [e2 0 ("activation", .categorical [.str "relu", .str "tanh"] (some 0) .high)
      ("lr", .numerical unitFloat none .low) rfl rfl]
    have hs := (indexDomain_declared (le_refl 2) true).shape
    have hq : quantize (some 2) (raws "lr") = some (if raws "lr" < 1 / 2 then 0 else 1) := by
      obtain ⟨k, -, -, hk, he⟩ := quantize_unit (q := 2) (le_refl _) (raws "lr")
      have hf : ⌊raws "lr" * (2 : ℤ)⌋ = if raws "lr" < 1 / 2 then 0 else 1 := by
        split_ifs with h
        · rw [Int.floor_eq_iff]; push_cast; constructor <;> linarith
        · rw [Int.floor_eq_iff]; push_cast; constructor <;> linarith
      rw [hf] at hk
      rw [he, hk]
      split_ifs <;> norm_num
    have hfrom : (indexDomain 2 true).fromUnit (raws "lr") =
        some (((if raws "lr" < 1 / 2 then 0 else 1 : ℕ)) : ℝ) := by
      unfold fromUnit
      rw [if_neg hs.not_unitFloat, indexDomain_card]
      push_cast
      rw [hq]
      have hr0 : rnd (0 : ℝ) = 0 := by have := rnd_intCast 0; simpa using this
      have hr1 : rnd (1 : ℝ) = 1 := by have := rnd_intCast 1; simpa using this
      split_ifs <;> norm_num [indexDomain, roundIf, asDtype, hr0, hr1]
    unfold valueFrom
    simp only [PriorHp.domain, PriorHp.center, Option.map_none, centeredOne, PriorHp.column,
      List.length_cons, List.length_nil, Nat.zero_add, Nat.reduceAdd, indices_eq,
      Option.bind_eq_bind, Option.bind_some, cast_unit hs, Dist.draw, hfrom, catDecode_nat]
    split_ifs <;> rfl
  · unfold ownValue valueFrom
    simp only [PriorHp.domain, PriorHp.center, Option.map_none, centeredOne, PriorHp.column,
      Option.bind_eq_bind, Option.bind_some, cast_unit declared_unitFloat.shape, Dist.draw, hfu,
      Option.map_some]

/-- The hypotheses of `C75_own_prior_partial` can be met. -/
example : ∀ p ∈ ([("lr", .numerical unitFloat (some (1 / 2)) .low),
      ("optimizer", .categorical [.str "adam", .str "sgd"] (some 1) .high)] : Dict PriorHp),
    p.2.Ok ∧ p.2.Drawable 3 := by
  intro p hp
  simp only [List.mem_cons, List.not_mem_nil, or_false] at hp
  rcases hp with rfl | rfl
  · refine ⟨⟨declared_unitFloat, rfl, ?_⟩, by intro h; simp [PriorHp.center] at h⟩
    rintro x ⟨⟩
    exact ⟨by norm_num [unitFloat], by norm_num [unitFloat], by simp [unitFloat]⟩
  · exact ⟨⟨by simp, by simp⟩, by intro h; simp [PriorHp.center] at h⟩

end Verif.Sampling
