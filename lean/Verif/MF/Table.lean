import Verif.MF.Spec
import Mathlib.Data.List.Basic
import Mathlib.Data.List.Perm.Basic

/-! # Lemmas about the table of observed configurations -/

namespace Neps.MF

variable {P F : Type}

/-- The table holds, for every configuration of `D`, its trial with the highest rung. -/
structure TabInv (st : Settings) (T : Table P F) (D : List (Rec P F)) : Prop where
  absent : ∀ c, T.row c = none ↔ ∀ t ∈ D, t.key.cfg ≠ c
  present : ∀ c row, T.row c = some row → row.cfg = c ∧ ∃ t ∈ D, t.key = ⟨c, row.rung⟩ ∧
    t.params = row.params ∧ getLoss st t.res = .ok row.perf ∧
    ∀ t' ∈ D, t'.key.cfg = c → t'.key.rung ≤ row.rung
  below : ∀ c row, T.row c = some row → c < T.bound
  tight : T.bound = 0 ∨ ∃ row, T.row (T.bound - 1) = some row

theorem TabInv.empty (st : Settings) : TabInv st (Table.empty : Table P F) [] := by
  refine ⟨?_, ?_, ?_, Or.inl rfl⟩ <;> simp [Table.empty]

theorem set_row (T : Table P F) (r : Row P F) (c : Nat) :
    (T.set r).row c = if c = r.cfg then some r else T.row c := by
  simp only [Table.set, Function.update]
  split <;> simp_all

theorem set_bound (T : Table P F) (r : Row P F) : (T.set r).bound = max T.bound (r.cfg + 1) := rfl

/-- Writing the row of a trial that is above all earlier trials of its configuration. -/
theorem TabInv.set {st : Settings} {T : Table P F} {D : List (Rec P F)} (h : TabInv st T D)
    {t : Rec P F} {row : Row P F} (hc : row.cfg = t.key.cfg) (hr : row.rung = t.key.rung)
    (hp : row.params = t.params) (hl : getLoss st t.res = .ok row.perf)
    (hmax : ∀ t' ∈ D, t'.key.cfg = t.key.cfg → t'.key.rung ≤ t.key.rung) :
    TabInv st (T.set row) (D ++ [t]) := by
  refine ⟨?_, ?_, ?_, ?_⟩
  · intro c
    rw [set_row]
    split
    · rename_i he
      simp only [reduceCtorEq, false_iff, not_forall]
      exact ⟨t, by simp, by simp [he, hc]⟩
    · rename_i he
      rw [h.absent c]
      constructor
      · intro hh t' ht'
        rcases List.mem_append.1 ht' with ht' | ht'
        · exact hh t' ht'
        · simp only [List.mem_singleton] at ht'; subst ht'
          intro hcc; exact he (by rw [hc, hcc])
      · intro hh t' ht'
        exact hh t' (by simp [ht'])
  · intro c row' hrow
    rw [set_row] at hrow
    split at hrow
    · rename_i he
      cases hrow
      refine ⟨he.symm, t, by simp, ?_, hp.symm, hl, ?_⟩
      · rw [he, hc, hr]
      · intro t' ht' hcc
        rcases List.mem_append.1 ht' with ht' | ht'
        · rw [hr]; exact hmax t' ht' (by rw [hcc, he, hc])
        · simp only [List.mem_singleton] at ht'; subst ht'; rw [hr]
    · rename_i he
      obtain ⟨h1, t0, ht0, hk, hpp, hll, hm⟩ := h.present c row' hrow
      refine ⟨h1, t0, by simp [ht0], hk, hpp, hll, ?_⟩
      intro t' ht' hcc
      rcases List.mem_append.1 ht' with ht' | ht'
      · exact hm t' ht' hcc
      · simp only [List.mem_singleton] at ht'; subst ht'
        exact absurd (by rw [hc, hcc]) he
  · intro c row' hrow
    rw [set_row] at hrow
    rw [set_bound]
    split at hrow
    · omega
    · have := h.below c row' hrow; omega
  · right
    rw [set_bound]
    by_cases hb : T.bound ≤ row.cfg + 1
    · refine ⟨row, ?_⟩
      rw [Nat.max_eq_right hb, set_row]; simp
    · have hb' : row.cfg + 1 ≤ T.bound := by omega
      rw [Nat.max_eq_left hb', set_row]
      split
      · exact ⟨row, rfl⟩
      · rcases h.tight with h0 | h0
        · omega
        · exact h0

/-- Passing over a trial that is not above what is recorded. -/
theorem TabInv.skip {st : Settings} {T : Table P F} {D : List (Rec P F)} (h : TabInv st T D)
    {t : Rec P F} {old : Row P F} (ho : T.row t.key.cfg = some old) (hle : t.key.rung ≤ old.rung) :
    TabInv st T (D ++ [t]) := by
  refine ⟨?_, ?_, h.below, h.tight⟩
  · intro c
    rw [h.absent c]
    constructor
    · intro hh t' ht'
      rcases List.mem_append.1 ht' with ht' | ht'
      · exact hh t' ht'
      · simp only [List.mem_singleton] at ht'; subst ht'
        intro hcc
        have := (h.absent c).2 hh
        rw [← hcc, ho] at this
        cases this
    · intro hh t' ht'
      exact hh t' (by simp [ht'])
  · intro c row' hrow
    obtain ⟨h1, t0, ht0, hk, hpp, hll, hm⟩ := h.present c row' hrow
    refine ⟨h1, t0, by simp [ht0], hk, hpp, hll, ?_⟩
    intro t' ht' hcc
    rcases List.mem_append.1 ht' with ht' | ht'
    · exact hm t' ht' hcc
    · simp only [List.mem_singleton] at ht'; subst ht'
      rw [hcc, hrow] at ho
      cases ho; exact hle

theorem TabInv.load {st : Settings} (ts : List (Rec P F)) :
    ∀ {T T' : Table P F} {D : List (Rec P F)}, TabInv st T D → load st T ts = .ok T' →
      TabInv st T' (D ++ ts) := by
  induction ts with
  | nil => intro T T' D h hl; simp only [MF.load, Except.ok.injEq] at hl; subst hl; simpa using h
  | cons t ts ih =>
    intro T T' D h hl
    simp only [MF.load] at hl
    cases hg : getLoss st t.res with
    | error e => simp [hg] at hl
    | ok perf =>
      simp only [hg] at hl
      have key : TabInv st (loadOne T t perf) (D ++ [t]) := by
        simp only [loadOne]
        cases ho : T.row t.key.cfg with
        | none =>
          exact h.set rfl rfl rfl hg
            (fun t' ht' hcc => absurd hcc ((h.absent _).1 ho t' ht'))
        | some old =>
          simp only
          obtain ⟨h1, t0, ht0, hk, hpp, hll, hm⟩ := h.present _ old ho
          split
          · rename_i hlt
            exact h.set rfl rfl rfl hg
              (fun t' ht' hcc => by have := hm t' ht' hcc; omega)
          · rename_i hlt
            exact h.skip ho (by omega)
      have := ih key hl
      simpa using this

theorem TabInv.pend {st : Settings} (ts : List (Rec P F)) :
    ∀ {T : Table P F} {D : List (Rec P F)}, TabInv st T D → (∀ t ∈ ts, t.res = .pending) →
      (∀ t ∈ ts, ∀ t' ∈ D ++ ts, t'.key.cfg = t.key.cfg →
        t'.key.rung ≤ t.key.rung ∧ t'.params = t.params) →
      TabInv st (ts.foldl pendOne T) (D ++ ts) := by
  induction ts with
  | nil => intro T D h _ _; simpa using h
  | cons t ts ih =>
    intro T D h hpend htop
    have key : TabInv st (pendOne T t) (D ++ [t]) := by
      have hres := hpend t (by simp)
      simp only [pendOne]
      cases ho : T.row t.key.cfg with
      | none =>
        exact h.set rfl rfl rfl (by simp [hres, getLoss])
          (fun t' ht' hcc => (htop t (by simp) t' (by simp [ht']) hcc).1)
      | some old =>
        simp only
        obtain ⟨h1, t0, ht0, hk, hpp, hll, hm⟩ := h.present _ old ho
        refine h.set h1 rfl ?_ (by simp [hres, getLoss])
          (fun t' ht' hcc => (htop t (by simp) t' (by simp [ht']) hcc).1)
        have := (htop t (by simp) t0 (by simp [ht0]) (by rw [hk])).2
        simp only
        rw [← hpp, this]
    have := ih key (fun t' ht' => hpend t' (by simp [ht']))
      (fun t' ht' t'' ht'' hcc => htop t' (by simp [ht']) t'' (by simpa using ht'') hcc)
    simpa using this

/-- What holds of every history of the four optimizers. -/
structure Inv (budget : Nat → F) (H : List (Rec P F)) : Prop where
  nodup : (H.map (·.key)).Nodup
  dense : ∃ n, ∀ c, (∃ t ∈ H, t.key.cfg = c) ↔ c < n
  params : ∀ t ∈ H, ∀ t' ∈ H, t.key.cfg = t'.key.cfg → t.params = t'.params
  done : ∀ t ∈ H, ∀ t' ∈ H, t.key.cfg = t'.key.cfg → t.key.rung < t'.key.rung → t.res ≠ .pending
  fid : ∀ t ∈ H, t.fid = budget t.key.rung

/-- The table computed from a history. -/
theorem observe_inv {st : Settings} {budget : Nat → F} {H H' : List (Rec P F)} {T : Table P F}
    (hI : Inv budget H) (hp : H'.Perm H) (ho : observe st H' = .ok T) :
    TabInv st T (H'.filter (!·.isPending) ++ H'.filter (·.isPending)) := by
  simp only [observe] at ho
  cases hl : load st Table.empty (H'.filter (!·.isPending)) with
  | error e => simp [hl] at ho
  | ok T0 =>
    simp only [hl, Except.ok.injEq] at ho
    subst ho
    have h0 := TabInv.load (st := st) _ (TabInv.empty st) hl
    simp only [List.nil_append] at h0
    refine TabInv.pend _ h0 ?_ ?_
    · intro t ht
      have := (List.mem_filter.1 ht).2
      simpa [Rec.isPending] using this
    · intro t ht t' ht' hcc
      have hres : t.res = .pending := by
        have := (List.mem_filter.1 ht).2
        simpa [Rec.isPending] using this
      have htH : t ∈ H := hp.mem_iff.1 (List.mem_filter.1 ht).1
      have htH' : t' ∈ H := by
        rcases List.mem_append.1 ht' with h | h
        · exact hp.mem_iff.1 (List.mem_filter.1 h).1
        · exact hp.mem_iff.1 (List.mem_filter.1 h).1
      refine ⟨?_, hI.params _ htH' _ htH hcc⟩
      by_contra hlt
      exact hI.done t htH t' htH' hcc.symm (by omega) hres

theorem mem_split (H : List (Rec P F)) (t : Rec P F) :
    t ∈ H.filter (!·.isPending) ++ H.filter (·.isPending) ↔ t ∈ H := by
  simp only [List.mem_append, List.mem_filter]
  cases t.isPending <;> simp

/-- The row of a configuration is its trial with the highest rung. -/
theorem observe_row {st : Settings} {budget : Nat → F} {H H' : List (Rec P F)} {T : Table P F}
    (hI : Inv budget H) (hp : H'.Perm H) (ho : observe st H' = .ok T) {c : Nat} {row : Row P F}
    (hr : T.row c = some row) :
    row.cfg = c ∧ ∃ t ∈ H, t.key = ⟨c, row.rung⟩ ∧ t.params = row.params ∧
      getLoss st t.res = .ok row.perf ∧ ∀ t' ∈ H, t'.key.cfg = c → t'.key.rung ≤ row.rung := by
  obtain ⟨h1, t, ht, hk, hpp, hl, hm⟩ := (observe_inv hI hp ho).present c row hr
  refine ⟨h1, t, hp.mem_iff.1 ((mem_split _ _).1 ht), hk, hpp, hl, ?_⟩
  intro t' ht' hcc
  exact hm t' ((mem_split _ _).2 (hp.mem_iff.2 ht')) hcc

theorem observe_none {st : Settings} {budget : Nat → F} {H H' : List (Rec P F)} {T : Table P F}
    (hI : Inv budget H) (hp : H'.Perm H) (ho : observe st H' = .ok T) (c : Nat) :
    T.row c = none ↔ ∀ t ∈ H, t.key.cfg ≠ c := by
  rw [(observe_inv hI hp ho).absent c]
  constructor
  · intro h t ht; exact h t ((mem_split _ _).2 (hp.mem_iff.2 ht))
  · intro h t ht; exact h t (hp.mem_iff.1 ((mem_split _ _).1 ht))

/-- The number of configurations of a history. -/
theorem observe_bound {st : Settings} {budget : Nat → F} {H H' : List (Rec P F)} {T : Table P F}
    (hI : Inv budget H) (hp : H'.Perm H) (ho : observe st H' = .ok T) (c : Nat) :
    c < T.bound ↔ ∃ t ∈ H, t.key.cfg = c := by
  obtain ⟨n, hn⟩ := hI.dense
  have hT := observe_inv hI hp ho
  have hnone := observe_none hI hp ho
  have hbn : T.bound = n := by
    apply Nat.le_antisymm
    · rcases hT.tight with h | ⟨row, h⟩
      · omega
      · have : T.row (T.bound - 1) ≠ none := by simp [h]
        rw [Ne, hnone] at this
        push Not at this
        obtain ⟨t, ht, hc⟩ := this
        have := (hn (T.bound - 1)).1 ⟨t, ht, hc⟩
        omega
    · rcases Nat.eq_zero_or_pos n with h | h
      · omega
      · obtain ⟨t, ht, hc⟩ := (hn (n - 1)).2 (by omega)
        cases hr : T.row (n - 1) with
        | none => exact absurd hc ((hnone _).1 hr t ht)
        | some row => have := hT.below _ _ hr; omega
  rw [hbn, hn c]

theorem filterMap_all_some {A B : Type} {f : A → Option B} {l : List A}
    (h : ∀ a ∈ l, (f a).isSome) (i : Nat) : (l.filterMap f)[i]? = (l[i]?).bind f := by
  induction l generalizing i with
  | nil => simp
  | cons a l ih =>
    obtain ⟨b, hb⟩ := Option.isSome_iff_exists.1 (h a (by simp))
    rw [List.filterMap_cons_some hb]
    cases i with
    | zero => simp [hb]
    | succ i => simpa using ih (fun a' ha' => h a' (by simp [ha'])) i

/-- The rows are listed by configuration number, without gaps: position and label agree. -/
theorem rows_get {st : Settings} {budget : Nat → F} {H H' : List (Rec P F)} {T : Table P F}
    (hI : Inv budget H) (hp : H'.Perm H) (ho : observe st H' = .ok T) (c : Nat) :
    T.rows[c]? = T.row c := by
  have hall : ∀ a ∈ List.range T.bound, (T.row a).isSome := by
    intro a ha
    have ha := (observe_bound hI hp ho a).1 (by simpa using ha)
    cases hr : T.row a with
    | some row => rfl
    | none =>
      obtain ⟨t, ht, hc⟩ := ha
      exact absurd hc ((observe_none hI hp ho a).1 hr t ht)
  rw [Table.rows, filterMap_all_some hall]
  by_cases hc : c < T.bound
  · simp [hc]
  · have : T.row c = none := by
      rw [observe_none hI hp ho]
      intro t ht hcc
      exact hc ((observe_bound hI hp ho c).2 ⟨t, ht, hcc⟩)
    simp [hc, this]

theorem mem_rows {st : Settings} {budget : Nat → F} {H H' : List (Rec P F)} {T : Table P F}
    (hI : Inv budget H) (hp : H'.Perm H) (ho : observe st H' = .ok T) (row : Row P F) :
    row ∈ T.rows ↔ T.row row.cfg = some row := by
  constructor
  · intro h
    obtain ⟨c, hc, hr⟩ := List.mem_filterMap.1 h
    rw [(observe_row hI hp ho hr).1]; exact hr
  · intro h
    exact List.mem_of_getElem? ((rows_get hI hp ho row.cfg).trans h)

theorem rows_length {st : Settings} {budget : Nat → F} {H H' : List (Rec P F)} {T : Table P F}
    (hI : Inv budget H) (hp : H'.Perm H) (ho : observe st H' = .ok T) :
    T.rows.length = T.bound := by
  apply Nat.le_antisymm
  · have := List.length_filterMap_le T.row (List.range T.bound)
    simpa [Table.rows] using this
  · by_contra hlt
    have h0 : T.rows[T.rows.length]? = none := by simp
    rw [rows_get hI hp ho, observe_none hI hp ho] at h0
    obtain ⟨t, ht, hc⟩ := (observe_bound hI hp ho T.rows.length).1 (by omega)
    exact h0 t ht hc

/-- The new configuration number is the number of configurations. -/
theorem newId_eq {st : Settings} {budget : Nat → F} {H H' : List (Rec P F)} {T : Table P F}
    (hI : Inv budget H) (hp : H'.Perm H) (ho : observe st H' = .ok T) : newId T = T.bound := by
  rw [newId, rows_length hI hp ho]
  split
  · rename_i h; exact h.symm
  · rfl

end Neps.MF
