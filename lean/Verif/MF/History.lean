import Verif.MF.Table

/-! # Every history of the optimizers satisfies `Inv` -/

namespace Neps.MF

variable {P F : Type}

/-- All promotion candidates of `ps` are finished configurations whose highest rung is the one
they are promoted from. -/
def PromoOK (T : Table P F) (ps : List (Nat × List Nat)) : Prop :=
  ∀ r l, (r, l) ∈ ps → ∀ c ∈ l, ∃ row ∈ T.rows, row.cfg = c ∧ row.rung = r ∧ row.perf.isNan = false

theorem mem_pick {A : Type} {l : List A} {idx : List Nat} {a : A} (h : a ∈ pick l idx) : a ∈ l := by
  obtain ⟨i, _, hi⟩ := List.mem_filterMap.1 h
  exact List.mem_of_getElem? hi

theorem mem_pyTake {A : Type} {k : Int} {l : List A} {a : A} (h : a ∈ pyTake k l) : a ∈ l := by
  simp only [pyTake] at h
  split at h <;> exact List.mem_of_mem_take h

theorem mem_atRung {rows : List (Row P F)} {r : Nat} {x : Row P F} :
    x ∈ atRung rows r ↔ x ∈ rows ∧ x.rung = r := by
  simp [atRung]

theorem dropDefault_subset (st : Settings) (rows : List (Row P F)) : dropDefault st rows ⊆ rows := by
  intro x hx
  simp only [dropDefault] at hx
  split at hx
  · exact (List.mem_filter.1 hx).1
  · exact hx

theorem dropna_subset (rows : List (Row P F)) : dropna rows ⊆ rows :=
  fun _ hx => (List.mem_filter.1 hx).1

theorem syncGo_ok {T : Table P F} {b : Bracket F} {sort : Argsort} {obj : Bool}
    {rows : List (Row P F)} (hrows : rows ⊆ T.rows) (rs : List Nat) :
    ∀ {total : Nat} {acc ps : List (Nat × List Nat)}, PromoOK T acc →
      syncGo b sort obj rows rs total acc = .ok ps → PromoOK T ps := by
  induction rs with
  | nil => intro total acc ps ha h; simp only [syncGo, Except.ok.injEq] at h; exact h ▸ ha
  | cons r rs ih =>
    intro total acc ps ha h
    simp only [syncGo] at h
    split at h
    · split at h
      · cases h
      · split at h
        · simp only [Except.ok.injEq] at h; exact h ▸ ha
        · split at h
          · exact ih ha h
          · split at h
            · cases h
            · rename_i hnan _ _
              refine ih ?_ h
              intro r' l hl c hc
              rcases List.mem_cons.1 hl with hl | hl
              · cases hl
                obtain ⟨x, hx, rfl⟩ := List.mem_map.1 hc
                have hx' := mem_pick hx
                refine ⟨x, hrows (mem_atRung.1 hx').1, rfl, (mem_atRung.1 hx').2, ?_⟩
                by_contra hn
                apply hnan
                simp only [List.any_eq_true]
                exact ⟨x, hx', by simpa using hn⟩
              · exact ha r' l hl c hc
    · exact ih ha h

theorem syncPromotions_ok {T : Table P F} {b : Bracket F} {sort : Argsort} {obj : Bool}
    {rows : List (Row P F)} (hrows : rows ⊆ T.rows) {ps : List (Nat × List Nat)}
    (h : syncPromotions b sort obj rows = .ok ps) : PromoOK T ps :=
  syncGo_ok hrows _ (by intro r l hl; cases hl) h

theorem asyncGo_ok {T : Table P F} {eta firstR : Nat} {sort : Argsort} {rows : List (Row P F)}
    (hrows : rows ⊆ T.rows) (hnan : ∀ x ∈ rows, x.perf.isNan = false) (rs : List Nat) :
    ∀ {ps : List (Nat × List Nat)}, asyncGo eta firstR sort rows rs = .ok ps → PromoOK T ps := by
  induction rs with
  | nil => intro ps h; simp only [asyncGo, Except.ok.injEq] at h; subst h; intro r l hl; cases hl
  | cons r rs ih =>
    intro ps h
    simp only [asyncGo] at h
    split at h
    · cases h
    · split at h
      · cases h
      · cases hrest : asyncGo eta firstR sort rows rs with
        | error e => simp [hrest] at h
        | ok rest =>
          simp only [hrest, Except.ok.injEq] at h
          subst h
          intro r' l hl c hc
          rcases List.mem_cons.1 hl with hl | hl
          · cases hl
            obtain ⟨x, hx, rfl⟩ := List.mem_map.1 hc
            have hx' := mem_pick (mem_pyTake hx)
            exact ⟨x, hrows (mem_atRung.1 hx').1, rfl, (mem_atRung.1 hx').2,
              hnan x (mem_atRung.1 hx').1⟩
          · exact ih hrest r' l hl c hc

theorem asyncPromotions_ok {T : Table P F} {b : Bracket F} {st : Settings} {firstR : Nat}
    {sort : Argsort} {ps : List (Nat × List Nat)}
    (h : asyncPromotions b firstR sort (dropDefault st (dropna T.rows)) = .ok ps) :
    PromoOK T ps := by
  refine asyncGo_ok (fun x hx => dropna_subset _ (dropDefault_subset _ _ hx)) ?_ _ h
  intro x hx
  have := (List.mem_filter.1 (dropDefault_subset _ _ hx)).2
  simpa using this

/-- The loop over brackets moves from bracket `cur` with the rows `rest` to bracket `cur'` with
the rows `rest'` by skipping full brackets. -/
inductive Skips (bs : Nat → Bracket F) (nb : Nat) :
    Nat → List (Row P F) → Nat → List (Row P F) → Prop
  | refl (cur rest) : Skips bs nb cur rest cur rest
  | step {cur rest cur' rest'} : 0 < (bs cur).cap (bs cur).minR →
      (bs cur).cap (bs cur).minR ≤ rest.length →
      Skips bs nb ((cur + 1) % nb) (rest.drop ((bs cur).cap (bs cur).minR)) cur' rest' →
      Skips bs nb cur rest cur' rest'

/-- What the loop returns: the promotions of a bracket, which is either full and has some, or is
the last one and not full yet. -/
theorem hbLoop_result {st : Settings} {bs : Nat → Bracket F} {nb : Nat} {sort : Argsort}
    {obj : Bool} (n : Nat) : ∀ (cur : Nat) (rest : List (Row P F)), rest.length = n →
    ∀ {cur' : Nat} {ps : List (Nat × List Nat)},
      hbLoop st bs nb sort obj cur rest = .ok (cur', ps) →
      ∃ rest', Skips bs nb cur rest cur' rest' ∧
        syncPromotions (bs cur') sort obj
          (dropDefault st (rest'.take ((bs cur').cap (bs cur').minR))) = .ok ps ∧
        ((promotionCount ps ≠ 0 ∧ (bs cur').cap (bs cur').minR ≤ rest'.length) ∨
          ¬ (0 < (bs cur').cap (bs cur').minR ∧ (bs cur').cap (bs cur').minR ≤ rest'.length)) := by
  induction n using Nat.strong_induction_on with
  | _ n ih =>
    intro cur rest hn cur' ps h
    rw [hbLoop] at h
    split at h
    · rename_i hc
      have hrec : ∀ {cur' : Nat} {ps : List (Nat × List Nat)},
          hbLoop st bs nb sort obj ((cur + 1) % nb) (rest.drop ((bs cur).cap (bs cur).minR))
            = .ok (cur', ps) → _ :=
        fun h => ih _ (by simp only [List.length_drop]; omega) _ _ rfl h
      simp only at h
      split at h
      · cases hs : syncPromotions (bs cur) sort obj
          (dropDefault st (rest.take ((bs cur).cap (bs cur).minR))) with
        | error e => simp [hs] at h
        | ok ps' =>
          simp only [hs] at h
          split at h
          · rename_i hp
            simp only [Except.ok.injEq, Prod.mk.injEq] at h
            obtain ⟨rfl, rfl⟩ := h
            exact ⟨rest, .refl _ _, hs, Or.inl ⟨hp, hc.2⟩⟩
          · obtain ⟨rest', hsk, hrest⟩ := hrec h
            exact ⟨rest', .step hc.1 hc.2 hsk, hrest⟩
      · obtain ⟨rest', hsk, hrest⟩ := hrec h
        exact ⟨rest', .step hc.1 hc.2 hsk, hrest⟩
    · rename_i hc
      cases hs : syncPromotions (bs cur) sort obj
          (dropDefault st (rest.take ((bs cur).cap (bs cur).minR))) with
      | error e => simp [hs] at h
      | ok ps' =>
        simp only [hs, Except.ok.injEq, Prod.mk.injEq] at h
        obtain ⟨rfl, rfl⟩ := h
        exact ⟨rest, .refl _ _, hs, Or.inr hc⟩

theorem Skips.subset {bs : Nat → Bracket F} {nb cur cur' : Nat} {rest rest' : List (Row P F)}
    (h : Skips bs nb cur rest cur' rest') : rest' ⊆ rest := by
  induction h with
  | refl => exact List.Subset.refl _
  | step _ _ _ ih => exact fun x hx => List.mem_of_mem_drop (ih hx)

theorem Skips.lt {bs : Nat → Bracket F} {nb cur cur' : Nat} {rest rest' : List (Row P F)}
    (h : Skips bs nb cur rest cur' rest') (hnb : 0 < nb) (hc : cur < nb) : cur' < nb := by
  induction h with
  | refl => exact hc
  | step _ _ _ ih => exact ih (Nat.mod_lt _ hnb)

/-- Successive halving is hyperband with a single bracket. -/
theorem shLoop_eq {st : Settings} {b : Bracket F} {sort : Argsort} {obj : Bool} (n : Nat) :
    ∀ (rest : List (Row P F)), rest.length = n →
      hbLoop st (fun _ => b) 1 sort obj 0 rest
        = (shLoop st b sort obj rest).map (fun ps => (0, ps)) := by
  induction n using Nat.strong_induction_on with
  | _ n ih =>
    intro rest hn
    rw [hbLoop, shLoop]
    split
    · rename_i hc
      have hrec := ih _ (by rw [← hn]; simp only [List.length_drop]; omega)
        (rest.drop (b.cap b.minR)) rfl
      simp only [Nat.mod_one, hrec]
      split
      · cases hs : syncPromotions b sort obj (dropDefault st (rest.take (b.cap b.minR))) with
        | error e => rfl
        | ok ps =>
          simp only
          split <;> rfl
      · rfl
    · cases hs : syncPromotions b sort obj (dropDefault st (rest.take (b.cap b.minR))) <;> rfl

theorem shAsk_eq (st : Settings) (b : Bracket F) (sort : Argsort) (ts : List (Rec P F)) (new : P) :
    shAsk st b sort ts new = hbAsk st (fun _ => b) 1 sort ts new := by
  simp only [shAsk, hbAsk]
  cases observe st ts with
  | error e => rfl
  | ok T =>
    simp only
    rw [shLoop_eq _ _ rfl]
    cases shLoop st b sort (hasError T.rows) (bracketRows st T.rows) <;> rfl

theorem bracketRows_subset (st : Settings) (rows : List (Row P F)) : bracketRows st rows ⊆ rows := by
  intro x hx
  simp only [bracketRows] at hx
  split at hx
  · exact List.mem_of_mem_drop hx
  · exact hx

/-- Every ask of the four optimizers ends in `getConfigAndIds` on promotions that are in order. -/
theorem ask_result {budget : Nat → F} {A : AskFn P F → Prop} (hA : IsMF budget A) {f : AskFn P F}
    (hf : A f) {H' : List (Rec P F)} {new : P} {p : Proposal P F} (h : f H' new = .ok p) :
    ∃ st b T ps, observe st H' = .ok T ∧ PromoOK T ps ∧ Agrees b budget ∧
      getConfigAndIds st b T ps new = .ok p := by
  have hhb : ∀ st (bs : Nat → Bracket F) nb sort, 0 < nb → (∀ i, i < nb → Agrees (bs i) budget) →
      hbAsk st bs nb sort H' new = .ok p →
      ∃ st b T ps, observe st H' = .ok T ∧ PromoOK T ps ∧ Agrees b budget ∧
        getConfigAndIds st b T ps new = .ok p := by
    intro st bs nb sort hnb hbud h
    simp only [hbAsk] at h
    cases hT : observe st H' with
    | error e => simp [hT] at h
    | ok T =>
      simp only [hT] at h
      cases hl : hbLoop st bs nb sort (hasError T.rows) 0 (bracketRows st T.rows) with
      | error e => simp [hl] at h
      | ok r =>
        obtain ⟨cur, ps⟩ := r
        simp only [hl] at h
        obtain ⟨rest', hsk, hs, _⟩ := hbLoop_result _ _ _ rfl hl
        refine ⟨st, bs cur, T, ps, hT, syncPromotions_ok ?_ hs, hbud _ (hsk.lt hnb hnb), h⟩
        intro x hx
        exact bracketRows_subset _ _ (hsk.subset (List.mem_of_mem_take (dropDefault_subset _ _ hx)))
  have hasync : ∀ st (b : Bracket F) sort firstR, Agrees b budget →
      (match observe st H' with
        | .error e => .error e
        | .ok T =>
          match asyncPromotions b firstR sort (dropDefault st (dropna T.rows)) with
          | .error e => .error e
          | .ok ps => getConfigAndIds st b T ps new) = Except.ok p →
      ∃ st b T ps, observe st H' = .ok T ∧ PromoOK T ps ∧ Agrees b budget ∧
        getConfigAndIds st b T ps new = .ok p := by
    intro st b sort firstR hb h
    cases hT : observe st H' with
    | error e => simp [hT] at h
    | ok T =>
      simp only [hT] at h
      cases hs : asyncPromotions b firstR sort (dropDefault st (dropna T.rows)) with
      | error e => simp [hs] at h
      | ok ps =>
        simp only [hs] at h
        exact ⟨st, b, T, ps, hT, asyncPromotions_ok hs, hb, h⟩
  cases hA with
  | sh st b hb =>
    obtain ⟨sort, _, rfl⟩ := hf
    rw [shAsk_eq] at h
    exact hhb st _ 1 sort Nat.one_pos (fun _ _ => hb) h
  | hb st bs nb hbud hnb =>
    obtain ⟨sort, _, rfl⟩ := hf
    exact hhb st bs nb sort hnb hbud h
  | asha st b hb =>
    obtain ⟨sort, _, rfl⟩ := hf
    exact hasync st b sort b.minR hb h
  | ahb st bs nb hbud hnb =>
    obtain ⟨sort, cur, _, hc, rfl⟩ := hf
    exact hasync st (bs cur) sort 0 (hbud cur hc) h

theorem promosAt_mem {ps : List (Nat × List Nat)} {r c : Nat} (h : c ∈ promosAt ps r) :
    ∃ l, (r, l) ∈ ps ∧ c ∈ l := by
  simp only [promosAt] at h
  cases hl : ps.lookup r with
  | none => simp [hl] at h
  | some l =>
    simp only [hl, Option.getD_some] at h
    refine ⟨l, ?_, h⟩
    induction ps with
    | nil => simp at hl
    | cons x ps ih =>
      obtain ⟨a, l'⟩ := x
      simp only [List.lookup] at hl
      split at hl
      · rename_i he
        simp only [Option.some.injEq] at hl
        simp only [beq_iff_eq] at he
        subst he; subst hl
        simp
      · exact List.mem_cons_of_mem _ (ih hl)

/-- The two kinds of proposals. -/
theorem proposal_cases {st : Settings} {b : Bracket F} {budget : Nat → F} {H H' : List (Rec P F)}
    {T : Table P F} {ps : List (Nat × List Nat)} {new : P} {p : Proposal P F}
    (hb : Agrees b budget) (hI : Inv budget H) (hperm : H'.Perm H) (ho : observe st H' = .ok T) (hps : PromoOK T ps)
    (h : getConfigAndIds st b T ps new = .ok p) :
    (∃ t ∈ H, p.prev = some t.key ∧ p.key = ⟨t.key.cfg, t.key.rung + 1⟩ ∧ p.params = t.params ∧
      t.res ≠ .pending ∧ p.fid = budget (t.key.rung + 1) ∧
      (∀ t' ∈ H, t'.key.cfg = t.key.cfg → t'.key.rung ≤ t.key.rung)) ∨
    (p.prev = none ∧ (∀ t ∈ H, t.key.cfg < p.key.cfg) ∧
      (∀ c, c < p.key.cfg → ∃ t ∈ H, t.key.cfg = c) ∧ p.fid = budget p.key.rung ∧
      p.params = new) := by
  simp only [getConfigAndIds] at h
  cases hprom : isPromotable b ps with
  | some r =>
    left
    simp only [hprom] at h
    cases hh : (promosAt ps r).head? with
    | none => simp [hh] at h
    | some c =>
      simp only [hh] at h
      obtain ⟨l, hl, hcl⟩ := promosAt_mem (List.mem_of_mem_head? hh)
      obtain ⟨row, hrow, rfl, rfl, hnan⟩ := hps r l hl c hcl
      have hr := (mem_rows hI hperm ho row).1 hrow
      rw [rows_get hI hperm ho, hr] at h
      simp only [Except.ok.injEq] at h
      subst h
      obtain ⟨_, t, ht, hk, hp, hl, hm⟩ := observe_row hI hperm ho hr
      have hrange : b.minR ≤ row.rung ∧ row.rung < b.maxR := by
        have := List.mem_of_find?_eq_some hprom
        simp only [List.mem_reverse, List.mem_range'_1] at this
        omega
      refine ⟨t, ht, by rw [hk], by rw [hk], hp.symm, ?_,
        by rw [hk]; exact hb.2 _ (by omega) (by omega), ?_⟩
      · intro hpend
        rw [hpend] at hl
        simp only [getLoss, Except.ok.injEq] at hl
        rw [← hl] at hnan
        simp [Perf.isNan, PyFloat.isNan] at hnan
      · intro t' ht' hc
        rw [hk] at hc ⊢
        exact hm t' ht' hc
  | none =>
    right
    simp only [hprom, Except.ok.injEq] at h
    subst h
    refine ⟨rfl, ?_, ?_, ?_, rfl⟩
    · intro t ht
      simp only [newId_eq hI hperm ho]
      exact (observe_bound hI hperm ho _).2 ⟨t, ht, rfl⟩
    · intro c hc
      simp only [newId_eq hI hperm ho] at hc
      exact (observe_bound hI hperm ho c).1 hc
    · simp only
      split
      · exact hb.2 _ hb.1 (Nat.le_refl _)
      · exact hb.2 _ (Nat.le_refl _) hb.1

theorem inj_of_nodup_map {A B : Type} {f : A → B} {l : List A} (h : (l.map f).Nodup) {a b : A}
    (ha : a ∈ l) (hb : b ∈ l) (he : f a = f b) : a = b := by
  induction l with
  | nil => cases ha
  | cons x l ih =>
    simp only [List.map_cons, List.nodup_cons] at h
    rcases List.mem_cons.1 ha with ha' | ha' <;> rcases List.mem_cons.1 hb with hb' | hb'
    · rw [ha', hb']
    · exact absurd (List.mem_map.2 ⟨b, hb', by rw [← he, ha']⟩) h.1
    · exact absurd (List.mem_map.2 ⟨a, ha', by rw [he, hb']⟩) h.1
    · exact ih h.2 ha' hb'

theorem Inv.nil (budget : Nat → F) : Inv budget ([] : List (Rec P F)) := by
  refine ⟨by simp, ⟨0, by simp⟩, by simp, by simp, by simp⟩

theorem Inv.snoc {budget : Nat → F} {H : List (Rec P F)} (hI : Inv budget H) {p : Proposal P F}
    (hcase : (∃ t ∈ H, p.prev = some t.key ∧ p.key = ⟨t.key.cfg, t.key.rung + 1⟩ ∧
        p.params = t.params ∧ t.res ≠ .pending ∧ p.fid = budget (t.key.rung + 1) ∧
        (∀ t' ∈ H, t'.key.cfg = t.key.cfg → t'.key.rung ≤ t.key.rung)) ∨
      (p.prev = none ∧ (∀ t ∈ H, t.key.cfg < p.key.cfg) ∧
        (∀ c, c < p.key.cfg → ∃ t ∈ H, t.key.cfg = c) ∧ p.fid = budget p.key.rung)) :
    p.key ∉ H.map (·.key) ∧ Inv budget (H ++ [p.toRec]) := by
  have hfresh : p.key ∉ H.map (·.key) := by
    intro hmem
    obtain ⟨t', ht', hk⟩ := List.mem_map.1 hmem
    rcases hcase with ⟨t, ht, _, hkey, _, _, _, hm⟩ | ⟨_, hlt, _⟩
    · have := hm t' ht' (by rw [hk, hkey])
      rw [hk, hkey] at this
      simp at this
    · have := hlt t' ht'
      rw [hk] at this
      omega
  refine ⟨hfresh, ?_, ?_, ?_, ?_, ?_⟩
  · rw [List.map_append, List.nodup_append]
    refine ⟨hI.nodup, by simp, ?_⟩
    intro a ha b hb
    simp only [Proposal.toRec, List.map_cons, List.map_nil, List.mem_singleton] at hb
    subst hb
    exact fun he => hfresh (he ▸ ha)
  · obtain ⟨n, hn⟩ := hI.dense
    rcases hcase with ⟨t, ht, _, hkey, _⟩ | ⟨_, hlt, hall, _⟩
    · refine ⟨n, fun c => ?_⟩
      rw [← hn c]
      constructor
      · rintro ⟨t', ht', hc⟩
        rcases List.mem_append.1 ht' with h | h
        · exact ⟨t', h, hc⟩
        · simp only [List.mem_singleton] at h; subst h
          exact ⟨t, ht, by rw [← hc]; simp [Proposal.toRec, hkey]⟩
      · rintro ⟨t', ht', hc⟩
        exact ⟨t', by simp [ht'], hc⟩
    · have hpn : p.key.cfg = n := by
        apply Nat.le_antisymm
        · by_contra hlt'
          obtain ⟨t, ht, hc⟩ := hall n (by omega)
          have := (hn n).1 ⟨t, ht, hc⟩
          omega
        · by_contra hlt'
          obtain ⟨t, ht, hc⟩ := (hn p.key.cfg).2 (by omega)
          have := hlt t ht
          omega
      refine ⟨n + 1, fun c => ?_⟩
      constructor
      · rintro ⟨t', ht', hc⟩
        rcases List.mem_append.1 ht' with h | h
        · have := (hn c).1 ⟨t', h, hc⟩; omega
        · simp only [List.mem_singleton] at h; subst h
          simp only [Proposal.toRec] at hc; omega
      · intro hc
        by_cases he : c = n
        · exact ⟨p.toRec, by simp, by simp [Proposal.toRec, hpn, he]⟩
        · obtain ⟨t, ht, hc'⟩ := (hn c).2 (by omega)
          exact ⟨t, by simp [ht], hc'⟩
  · have hnew : ∀ t' ∈ H, t'.key.cfg = p.key.cfg → t'.params = p.params := by
      intro t' ht' hc
      rcases hcase with ⟨t, ht, _, hkey, hpp, _⟩ | ⟨_, hlt, _⟩
      · rw [hpp]; exact hI.params t' ht' t ht (by rw [hc, hkey])
      · have := hlt t' ht'; omega
    intro t ht t' ht' hc
    rcases List.mem_append.1 ht with h | h <;> rcases List.mem_append.1 ht' with h' | h'
    · exact hI.params t h t' h' hc
    · simp only [List.mem_singleton] at h'; subst h'
      exact hnew t h hc
    · simp only [List.mem_singleton] at h; subst h
      exact (hnew t' h' hc.symm).symm
    · simp only [List.mem_singleton] at h h'; rw [h, h']
  · intro t ht t' ht' hc hlt
    rcases List.mem_append.1 ht with h | h <;> rcases List.mem_append.1 ht' with h' | h'
    · exact hI.done t h t' h' hc hlt
    · simp only [List.mem_singleton] at h'; subst h'
      simp only [Proposal.toRec] at hc hlt
      rcases hcase with ⟨t0, ht0, _, hkey, _, hres, _, hm⟩ | ⟨_, hlt', _⟩
      · by_cases hr : t.key.rung = t0.key.rung
        · have hkk : t.key = t0.key := by
            cases hk1 : t.key; cases hk2 : t0.key
            simp_all
          have : t = t0 := by
            exact inj_of_nodup_map hI.nodup h ht0 hkk
          rw [this]; exact hres
        · have hle := hm t h (by rw [hc, hkey])
          exact hI.done t h t0 ht0 (by rw [hc, hkey]) (by omega)
      · have := hlt' t h; omega
    · simp only [List.mem_singleton] at h; subst h
      simp only [Proposal.toRec] at hc hlt
      rcases hcase with ⟨t0, ht0, _, hkey, _, hres, _, hm⟩ | ⟨_, hlt', _⟩
      · have := hm t' h' (by rw [← hc, hkey])
        rw [hkey] at hlt
        simp at hlt
        omega
      · have := hlt' t' h'; omega
    · simp only [List.mem_singleton] at h h'
      rw [h, h'] at hlt
      exact absurd hlt (Nat.lt_irrefl _)
  · intro t ht
    rcases List.mem_append.1 ht with h | h
    · exact hI.fid t h
    · simp only [List.mem_singleton] at h; subst h
      simp only [Proposal.toRec]
      rcases hcase with ⟨t0, ht0, _, hkey, _, hres, hf, hm⟩ | ⟨_, _, _, hf⟩
      · rw [hf, hkey]
      · exact hf

/-- A report changes only results. -/
theorem mem_report {k : Key} {res : Res} {H : List (Rec P F)} {t : Rec P F} (h : t ∈ report k res H) :
    ∃ t0 ∈ H, t.key = t0.key ∧ t.params = t0.params ∧ t.fid = t0.fid ∧
      (t.res = t0.res ∨ t.res = res) := by
  obtain ⟨t0, ht0, rfl⟩ := List.mem_map.1 h
  refine ⟨t0, ht0, ?_⟩
  split <;> simp

theorem report_keys (k : Key) (res : Res) (H : List (Rec P F)) :
    (report k res H).map (·.key) = H.map (·.key) := by
  simp only [report, List.map_map]
  apply List.map_congr_left
  intro t _
  simp only [Function.comp]
  split <;> rfl

theorem report_mem {k : Key} {res : Res} {H : List (Rec P F)} {t0 : Rec P F} (h : t0 ∈ H) :
    ∃ t ∈ report k res H, t.key = t0.key := by
  refine ⟨_, List.mem_map.2 ⟨t0, h, rfl⟩, ?_⟩
  split <;> rfl

theorem Inv.report {budget : Nat → F} {H : List (Rec P F)} (hI : Inv budget H) (k : Key) {res : Res}
    (hres : res ≠ .pending) : Inv budget (report k res H) := by
  refine ⟨by rw [report_keys]; exact hI.nodup, ?_, ?_, ?_, ?_⟩
  · obtain ⟨n, hn⟩ := hI.dense
    refine ⟨n, fun c => ?_⟩
    rw [← hn c]
    constructor
    · rintro ⟨t, ht, hc⟩
      obtain ⟨t0, ht0, hk, _⟩ := mem_report ht
      exact ⟨t0, ht0, by rw [← hk, hc]⟩
    · rintro ⟨t0, ht0, hc⟩
      obtain ⟨t, ht, hk⟩ := report_mem (k := k) (res := res) ht0
      exact ⟨t, ht, by rw [hk, hc]⟩
  · intro t ht t' ht' hc
    obtain ⟨t0, ht0, hk, hp, _⟩ := mem_report ht
    obtain ⟨t1, ht1, hk', hp', _⟩ := mem_report ht'
    rw [hp, hp']
    exact hI.params t0 ht0 t1 ht1 (by rw [← hk, ← hk', hc])
  · intro t ht t' ht' hc hlt
    obtain ⟨t0, ht0, hk, hp, _, hr⟩ := mem_report ht
    obtain ⟨t1, ht1, hk', hp', _⟩ := mem_report ht'
    rcases hr with hr | hr
    · rw [hr]
      exact hI.done t0 ht0 t1 ht1 (by rw [← hk, ← hk', hc]) (by rw [← hk, ← hk']; exact hlt)
    · rw [hr]; exact hres
  · intro t ht
    obtain ⟨t0, ht0, hk, hp, hf, hr⟩ := mem_report ht
    rw [hf, hk]; exact hI.fid t0 ht0

/-- Every history satisfies the invariant. -/
theorem Reach.inv {budget : Nat → F} {A : AskFn P F → Prop} (hA : IsMF budget A)
    {H : List (Rec P F)} (h : Reach A H) : Inv budget H := by
  induction h with
  | start => exact Inv.nil budget
  | ask _ hf hp hask ih =>
    obtain ⟨st, b, T, ps, hT, hps, hb, hg⟩ := ask_result hA hf hask
    refine (Inv.snoc ih ?_).2
    have := proposal_cases hb ih hp hT hps hg
    rcases this with h | ⟨h1, h2, h3, h4, _⟩
    · exact Or.inl h
    · exact Or.inr ⟨h1, h2, h3, h4⟩
  | report k res _ hres ih => exact ih.report k hres

end Neps.MF
