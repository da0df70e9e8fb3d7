import Verif.Plot.Lemmas
import Mathlib.Data.List.Dedup
import Mathlib.Data.List.ReduceOption
import Mathlib.Tactic.Ring
import Mathlib.Tactic.Set

/-! # Lemmas on the curve -/

namespace Neps.Plot

open Neps.Ids

theorem mapM_some {α β : Type} {f : α → Option β} {g : α → β} {l : List α}
    (h : ∀ x ∈ l, f x = some (g x)) : l.mapM f = some (l.map g) := by
  induction l with
  | nil => rfl
  | cons a l ih =>
    rw [List.mapM_cons, h a List.mem_cons_self, ih (fun x hx => h x (List.mem_cons_of_mem _ hx))]
    rfl

theorem filter_take {T : List Entry} (hT : T.Pairwise (fun a b => num a < num b)) {j : ℕ}
    {e : Entry} (hj : T[j]? = some e) :
    T.filter (fun u => num u ≤ num e) = T.take (j + 1) := by
  obtain ⟨hlt, rfl⟩ := List.getElem?_eq_some_iff.1 hj
  have h1 : (T.take (j + 1)).filter (fun u => num u ≤ num T[j]) = T.take (j + 1) := by
    rw [List.filter_eq_self]
    intro u hu
    obtain ⟨m, hm, rfl⟩ := List.mem_take_iff_getElem.1 hu
    simp only [decide_eq_true_eq]
    rcases Nat.lt_or_ge m j with h | h
    · exact (List.pairwise_iff_getElem.1 hT m j (by omega) hlt h).le
    · have : m = j := by omega
      subst this
      exact le_rfl
  have h2 : (T.drop (j + 1)).filter (fun u => num u ≤ num T[j]) = [] := by
    rw [List.filter_eq_nil_iff]
    intro u hu
    obtain ⟨m, hm, rfl⟩ := List.mem_drop_iff_getElem.1 hu
    simp only [decide_eq_true_eq, not_le]
    exact List.pairwise_iff_getElem.1 hT j _ hlt _ (by omega)
  have h3 : T.filter (fun u => num u ≤ num T[j]) =
      (T.take (j + 1) ++ T.drop (j + 1)).filter (fun u => num u ≤ num T[j]) :=
    congrArg _ (List.take_append_drop (j + 1) T).symm
  rw [h3, List.filter_append, h1, h2, List.append_nil]

theorem spent_get {key : Option String} {s : List Entry} (h : Complete s) {j : ℕ} {e : Entry}
    (hj : (sortStats s)[j]? = some e) :
    spent key s e = (((sortStats s).take (j + 1)).map (costOf key)).sum := by
  unfold spent
  rw [← filter_take (sortStats_sorted h) hj]
  exact (((sortStats_perm s).symm.filter _).map _).sum_eq

theorem costOf_pos {key : Option String} {s : List Entry} (h : Costed key s) :
    ∀ e ∈ s, 0 < costOf key e := by
  intro e he
  cases key with
  | none => simp [costOf]
  | some k =>
    obtain ⟨l, info, c, h1, h2, h3⟩ := h k rfl e he
    simp [costOf, h1, h2, h3]

theorem getLoss_some {s : List Entry} (h : Complete s) : ∀ e ∈ s, getLoss e = some (lossOf e) := by
  intro e he
  have := h.success e he
  unfold getLoss lossOf
  cases hh : e.outcome with
  | error => exact absurd hh this
  | success => rfl

theorem getCost_some {key : Option String} {s : List Entry} (h : Costed key s) :
    ∀ e ∈ s, getCost key e = some (costOf key e) := by
  intro e he
  cases key with
  | none => simp [getCost, costOf]
  | some k =>
    obtain ⟨l, info, c, h1, h2, h3⟩ := h k rfl e he
    simp [costOf, getCost, getInfo, h1, h2]

/-- What is read for a complete seed. -/
def seedOf (key : Option String) (m : List Entry → ℚ) (s : List Entry) : Seed :=
  ⟨minAcc ((sortStats s).map lossOf), (sortStats s).map (costOf key), m s⟩

theorem sortStats_ne_nil {s : List Entry} (h : s ≠ []) : sortStats s ≠ [] := by
  intro he
  have := (sortStats_perm s).length_eq
  rw [he] at this
  exact h (List.length_eq_zero_iff.1 this.symm)

theorem processSeed_eq {key : Option String} {s : List Entry} (h : Complete s) (hc : Costed key s)
    (w : ℕ) (m : List Entry → ℚ) (hm : maxCost (sortStats s) key = some (m s)) :
    processSeed s key false w = some (seedOf key m s) := by
  have hmem : ∀ e, e ∈ sortStats s ↔ e ∈ s := fun e => (sortStats_perm s).mem_iff
  obtain ⟨st, hst⟩ : ∃ st, globalStart (sortStats s) = some st := by
    unfold globalStart
    cases hh : (sortStats s).insertionSort (fun a b => a.id ≤ b.id) with
    | nil =>
      have h1 := (List.perm_insertionSort (fun a b : Entry => a.id ≤ b.id) (sortStats s)).length_eq
      rw [hh] at h1
      exact absurd (List.length_eq_zero_iff.1 h1.symm) (sortStats_ne_nil h.nonempty)
    | cons a l => exact ⟨_, rfl⟩
  have h1 : (sortStats s).mapM (entryCost (sortStats s) key false w st) =
      some ((sortStats s).map (costOf key)) := by
    apply mapM_some
    intro e he
    simp [entryCost, getCost_some hc e ((hmem e).1 he)]
  have h2 : (sortStats s).mapM getLoss = some ((sortStats s).map lossOf) :=
    mapM_some (fun e he => getLoss_some h e ((hmem e).1 he))
  simp only [processSeed, hm, hst, h1, h2, seedOf]

/-! ## The common index -/

theorem mem_unionIndex {cols : List (List (ℚ × ℚ))} {x : ℚ} :
    x ∈ unionIndex cols ↔ ∃ c ∈ cols, x ∈ c.map Prod.fst := by
  unfold unionIndex
  rw [(List.perm_insertionSort _ _).mem_iff, List.mem_dedup, List.mem_flatMap]

theorem unionIndex_sorted (cols : List (List (ℚ × ℚ))) : (unionIndex cols).Pairwise (· < ·) := by
  have h1 : (unionIndex cols).Pairwise (· ≤ ·) := List.pairwise_insertionSort _ _
  have h2 : (unionIndex cols).Nodup :=
    (List.perm_insertionSort _ _).nodup_iff.2 (List.nodup_dedup _)
  exact (h1.and h2).imp (fun h => lt_of_le_of_ne h.1 h.2)

/-! ## Rows -/

theorem row_some {shows : List Entry → ℚ → Prop} {f : List Entry → Option ℚ}
    {seeds : List (List Entry)} (h : ∀ s ∈ seeds, ∃ b, shows s b ∧ f s = some b) :
    ∃ bs : List ℚ, List.Forall₂ shows seeds bs ∧ seeds.map f = bs.map some := by
  induction seeds with
  | nil => exact ⟨[], List.Forall₂.nil, rfl⟩
  | cons s seeds ih =>
    obtain ⟨b, hb1, hb2⟩ := h s List.mem_cons_self
    obtain ⟨bs, h1, h2⟩ := ih (fun t ht => h t (List.mem_cons_of_mem _ ht))
    exact ⟨b :: bs, List.Forall₂.cons hb1 h1, by simp [hb2, h2]⟩

theorem reduceOption_map_some (bs : List ℚ) : (bs.map some).reduceOption = bs := by
  induction bs with
  | nil => rfl
  | cons b bs ih => rw [List.map_cons, List.reduceOption_cons_of_some, ih]

theorem column_fst (key : Option String) (m : List Entry → ℚ) (s : List Entry) :
    (column (seedOf key m s)).map Prod.fst = cumsum ((sortStats s).map (costOf key)) := by
  unfold column seedOf
  rw [List.map_fst_zip]
  simp

theorem column_length (key : Option String) (m : List Entry → ℚ) (s : List Entry) :
    (column (seedOf key m s)).length = s.length := by
  unfold column seedOf
  simp [(sortStats_perm s).length_eq]

theorem column_get (key : Option String) (m : List Entry → ℚ) {s : List Entry} (h : Complete s)
    {j : ℕ} {p : ℚ × ℚ} (hp : (column (seedOf key m s))[j]? = some p) :
    ∃ e ∈ s, (sortStats s)[j]? = some e ∧ p.1 = spent key s e ∧
      (∃ u ∈ s, num u ≤ num e ∧ lossOf u = p.2) ∧ ∀ u ∈ s, num u ≤ num e → p.2 ≤ lossOf u := by
  have hmem : ∀ e, e ∈ sortStats s ↔ e ∈ s := fun e => (sortStats_perm s).mem_iff
  unfold column seedOf at hp
  rw [List.getElem?_zip_eq_some] at hp
  obtain ⟨h1, h2⟩ := hp
  have hj : j < (sortStats s).length := by
    obtain ⟨hh, _⟩ := List.getElem?_eq_some_iff.1 h1
    simpa using hh
  have he : (sortStats s)[j]? = some (sortStats s)[j] := List.getElem?_eq_getElem hj
  refine ⟨(sortStats s)[j], (hmem _).1 (List.getElem_mem hj), he, ?_, ?_, ?_⟩
  · rw [cumsum_get _ _ (by simpa using hj)] at h1
    rw [spent_get h he, List.map_take]
    exact (Option.some.inj h1).symm
  · obtain ⟨h3, _⟩ := minAcc_spec _ _ _ h2
    rw [← List.map_take, ← filter_take (sortStats_sorted h) he] at h3
    obtain ⟨u, hu, hu'⟩ := List.mem_map.1 h3
    rw [List.mem_filter] at hu
    exact ⟨u, (hmem u).1 hu.1, by simpa using hu.2, hu'⟩
  · intro u hu hle
    obtain ⟨_, h3⟩ := minAcc_spec _ _ _ h2
    rw [← List.map_take, ← filter_take (sortStats_sorted h) he] at h3
    exact h3 _ (List.mem_map_of_mem (List.mem_filter.2 ⟨(hmem u).2 hu, by simpa using hle⟩))

theorem index_of_mem {s : List Entry} {u : Entry} (hu : u ∈ s) :
    ∃ m : ℕ, (sortStats s)[m]? = some u :=
  List.mem_iff_getElem?.1 ((sortStats_perm s).mem_iff.2 hu)

theorem index_lt {s : List Entry} (h : Complete s) {u e : Entry} {i j : ℕ}
    (hi : (sortStats s)[i]? = some u) (hj : (sortStats s)[j]? = some e) (hlt : num u < num e) :
    i < j := by
  obtain ⟨hi', rfl⟩ := List.getElem?_eq_some_iff.1 hi
  obtain ⟨hj', rfl⟩ := List.getElem?_eq_some_iff.1 hj
  by_contra hc
  rcases Nat.lt_or_ge j i with h' | h'
  · exact absurd (List.pairwise_iff_getElem.1 (sortStats_sorted h) j i hj' hi' h') (by omega)
  · have : i = j := by omega
    subst this
    exact absurd hlt (lt_irrefl _)

/-- The curve of complete seeds, before the axis is scaled. -/
theorem interpolate_eq (ragged : Bool) (seeds : List (List Entry)) (key : Option String)
    (m : List Entry → ℚ) (hc : ∀ s ∈ seeds, Complete s) (hk : ∀ s ∈ seeds, Costed key s)
    (hr : ragged = true ∨ ∀ s ∈ seeds, ∀ t ∈ seeds, s.length = t.length) :
    ∃ pts, interpolate ragged none (seeds.map (seedOf key m)) = some pts ∧
      AxisOf key seeds (pts.map Prod.fst) ∧ MeansOf (BestUntilReached key) seeds pts := by
  have hsorted : ∀ s ∈ seeds, ((column (seedOf key m s)).map Prod.fst).Pairwise (· < ·) := by
    intro s hs
    rw [column_fst]
    apply cumsum_sorted
    intro x hx
    obtain ⟨e, he, rfl⟩ := List.mem_map.1 hx
    exact costOf_pos (hk s hs) e ((sortStats_perm s).mem_iff.1 he)
  have h1 : ¬ (¬ ragged = true ∧ ∃ s ∈ seeds.map (seedOf key m), ∃ t ∈ seeds.map (seedOf key m),
      s.incumbents.length ≠ t.incumbents.length) := by
    rintro ⟨h, s, hs, t, ht, hne⟩
    obtain ⟨s, hs', rfl⟩ := List.mem_map.1 hs
    obtain ⟨t, ht', rfl⟩ := List.mem_map.1 ht
    rcases hr with hr | hr
    · exact h hr
    · apply hne
      simp [seedOf, (sortStats_perm _).length_eq, hr s hs' t ht']
  have h2 : ¬ ∃ c ∈ (seeds.map (seedOf key m)).map column, ¬ (c.map Prod.fst).Nodup := by
    rintro ⟨c, hcm, hn⟩
    rw [List.map_map] at hcm
    obtain ⟨s, hs, rfl⟩ := List.mem_map.1 hcm
    exact hn ((hsorted s hs).imp (fun h => h.ne))
  unfold interpolate
  simp only [if_neg h1, if_neg h2]
  refine ⟨_, rfl, ?_, ?_⟩
  · rw [List.map_fst_zip (by simp)]
    refine ⟨unionIndex_sorted _, ?_⟩
    intro x
    rw [mem_unionIndex]
    simp only [List.map_map, List.mem_map, Function.comp_apply]
    constructor
    · rintro ⟨c, ⟨s, hs, rfl⟩, p, hp, rfl⟩
      obtain ⟨j, hj⟩ := List.mem_iff_getElem?.1 hp
      obtain ⟨e, he, _, h3, _⟩ := column_get key m (hc s hs) hj
      exact ⟨s, hs, e, he, h3⟩
    · rintro ⟨s, hs, e, he, rfl⟩
      obtain ⟨j, hj⟩ := index_of_mem he
      have hjl : j < (column (seedOf key m s)).length := by
        rw [column_length, ← (sortStats_perm s).length_eq]
        exact (List.getElem?_eq_some_iff.1 hj).1
      have hg := List.getElem?_eq_getElem hjl
      obtain ⟨e', _, h3, h4, _⟩ := column_get key m (hc s hs) hg
      rw [hj] at h3
      obtain rfl := Option.some.inj h3
      exact ⟨_, ⟨s, hs, rfl⟩, _, List.getElem_mem hjl, h4⟩
  · intro p hp
    obtain ⟨i, hi⟩ := List.mem_iff_getElem?.1 hp
    rw [List.getElem?_zip_eq_some] at hi
    obtain ⟨hx, hy⟩ := hi
    rw [List.getElem?_map] at hy
    have hil : i < (unionIndex ((seeds.map (seedOf key m)).map column)).length :=
      (List.getElem?_eq_some_iff.1 hx).1
    rw [List.getElem?_range hil, Option.map_some] at hy
    have hy := (Option.some.inj hy).symm
    set idx := unionIndex ((seeds.map (seedOf key m)).map column) with hidx
    obtain ⟨bs, hb1, hb2⟩ := row_some (shows := fun s b => BestUntilReached key s p.1 b)
      (f := fun s => ((filled idx (column (seedOf key m s)))[i]?).join) (seeds := seeds) (by
        intro s hs
        obtain ⟨j, q, h3, h4, h5, h6⟩ := filled_get idx (column (seedOf key m s))
          (unionIndex_sorted _) (hsorted s hs) (by
            intro x hx
            rw [hidx, mem_unionIndex]
            exact ⟨_, List.mem_map_of_mem (List.mem_map_of_mem hs), hx⟩) (by
            intro h
            have := column_length key m s
            rw [h] at this
            exact (hc s hs).nonempty (List.length_eq_zero_iff.1 this.symm)) i p.1 hx
        obtain ⟨e, he, he1, he2, he3, he4⟩ := column_get key m (hc s hs) h3
        refine ⟨q.2, ⟨e, he, ?_, ?_, he3, he4⟩, by rw [h4]; rfl⟩
        · rcases h5 with h5 | h5
          · exact Or.inl (he2 ▸ h5)
          · right
            intro u hu
            by_contra hlt
            obtain ⟨k, hk'⟩ := index_of_mem hu
            have := index_lt (hc s hs) he1 hk' (by omega)
            have hkl := (List.getElem?_eq_some_iff.1 hk').1
            rw [(sortStats_perm s).length_eq] at hkl
            rw [column_length] at h5
            omega
        · intro u hu hlt
          obtain ⟨k, hk'⟩ := index_of_mem hu
          have hkj := index_lt (hc s hs) hk' he1 hlt
          have hkl : k < (column (seedOf key m s)).length := by
            rw [column_length, ← (sortStats_perm s).length_eq]
            exact (List.getElem?_eq_some_iff.1 hk').1
          have hg := List.getElem?_eq_getElem hkl
          obtain ⟨e', _, h7, h8, _⟩ := column_get key m (hc s hs) hg
          rw [hk'] at h7
          obtain rfl := Option.some.inj h7
          rw [← h8]
          exact h6 k _ hkj hg)
    refine ⟨bs, hb1, ?_⟩
    rw [hy, List.map_map, List.map_map, List.map_map]
    have : ((fun c : List (Option ℚ) => (c[i]?).join) ∘ filled idx) ∘ column ∘ seedOf key m =
        fun s => ((filled idx (column (seedOf key m s)))[i]?).join := rfl
    have h9 : List.map (((fun c : List (Option ℚ) => (c[i]?).join) ∘ filled idx) ∘ column ∘
        seedOf key m) seeds = bs.map some := by
      rw [this]; exact hb2
    unfold mean
    first
      | rw [h9, reduceOption_map_some]
      | (simp only [Function.comp_def] at h9 ⊢; rw [h9, reduceOption_map_some])

theorem interpolate_scale (ragged : Bool) (c : ℚ) (ss : List Seed) :
    interpolate ragged (some c) ss =
      (interpolate ragged none ss).map (List.map (fun p => (p.1 / c, p.2))) := by
  unfold interpolate
  simp only
  split
  · rfl
  · split
    · rfl
    · simp only [Option.map_some, Option.some.injEq]
      rw [List.zip_map_left]
      rfl

/-! ## Best within a budget -/

theorem spent_mono {key : Option String} {s : List Entry} (h : Complete s) (hk : Costed key s)
    {u e : Entry} (hu : u ∈ s) (he : e ∈ s) (hlt : num u < num e) :
    spent key s u < spent key s e := by
  obtain ⟨i, hi⟩ := index_of_mem hu
  obtain ⟨j, hj⟩ := index_of_mem he
  have hij := index_lt h hi hj hlt
  rw [spent_get h hi, spent_get h hj, List.map_take, List.map_take]
  have hs : (cumsum ((sortStats s).map (costOf key))).Pairwise (· < ·) := by
    apply cumsum_sorted
    intro x hx
    obtain ⟨e, he, rfl⟩ := List.mem_map.1 hx
    exact costOf_pos hk e ((sortStats_perm s).mem_iff.1 he)
  have hjl := (List.getElem?_eq_some_iff.1 hj).1
  have h1 := cumsum_get ((sortStats s).map (costOf key)) i (by simp; omega)
  have h2 := cumsum_get ((sortStats s).map (costOf key)) j (by simpa using hjl)
  obtain ⟨h1', h1''⟩ := List.getElem?_eq_some_iff.1 h1
  obtain ⟨h2', h2''⟩ := List.getElem?_eq_some_iff.1 h2
  rw [← h1'', ← h2'']
  exact List.pairwise_iff_getElem.1 hs i j h1' h2' hij

theorem spent_congr {key : Option String} {s : List Entry} {u e : Entry} (h : num u = num e) :
    spent key s u = spent key s e := by
  unfold spent
  rw [h]

theorem bestWithin_of {key : Option String} {s : List Entry} (h : Complete s) (hk : Costed key s)
    {x b : ℚ} (hb : BestUntilReached key s x b)
    (hx : ∀ e ∈ s, (∀ u ∈ s, num u < num e → spent key s u < x) → spent key s e ≤ x) :
    BestWithin key s x b := by
  obtain ⟨e, he, h1, h2, ⟨u, hu, hu1, hu2⟩, h4⟩ := hb
  have hiff : ∀ u ∈ s, spent key s u ≤ x ↔ num u ≤ num e := by
    intro u hu
    constructor
    · intro hs
      by_contra hc
      have hc : num e < num u := by omega
      rcases h1 with h1 | h1
      · exact absurd (h1.trans_lt (spent_mono h hk he hu hc)) (not_lt.2 hs)
      · exact absurd (h1 u hu) (by omega)
    · intro hle
      rcases Nat.lt_or_ge (num u) (num e) with h' | h'
      · exact (h2 u hu h').le
      · rw [spent_congr (le_antisymm hle h')]
        exact hx e he h2
  exact ⟨⟨u, hu, (hiff u hu).2 hu1, hu2⟩, fun v hv hs => h4 v hv ((hiff v hv).1 hs)⟩

theorem spent_none {s : List Entry} (h : Complete s) {j : ℕ} {e : Entry}
    (hj : (sortStats s)[j]? = some e) : spent none s e = (j + 1 : ℕ) := by
  rw [spent_get h hj]
  have hjl := (List.getElem?_eq_some_iff.1 hj).1
  have : ∀ l : List Entry, (l.map (costOf none)).sum = (l.length : ℚ) := by
    intro l
    induction l with
    | nil => rfl
    | cons a l ih =>
      rw [List.map_cons, List.sum_cons, ih]
      simp [costOf]
      ring
  rw [this, List.length_take]
  congr 1
  omega

end Neps.Plot
