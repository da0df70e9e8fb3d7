import Verif.MF.Async
import Verif.MF.Budget
import Verif.MF.Order

/-! # The optimizers answer, and promote whenever they can -/

namespace Neps.MF

variable {P F : Type}

/-! ## The loop of the synchronous policy -/

theorem syncGo_total {b : Bracket F} {sort : Argsort} {rows : List (Row P F)} (rs : List Nat) :
    ∀ (total : Nat) (acc : List (Nat × List Nat)),
      (∀ pre r post, rs = pre ++ r :: post →
        b.cap r ≤ total + ((pre ++ [r]).map (fun r' => (atRung rows r').length)).sum →
        r ≠ b.maxR → atRung rows r ≠ []) →
      ∃ ps, syncGo b sort false rows rs total acc = .ok ps := by
  induction rs with
  | nil => intro total acc _; exact ⟨acc, rfl⟩
  | cons r rs ih =>
    intro total acc h
    have hrec : ∀ acc', ∃ ps, syncGo b sort false rows rs (total + (atRung rows r).length) acc' = .ok ps := by
      intro acc'
      apply ih
      intro pre r' post hrs hcap hne
      apply h (r :: pre) r' post (by rw [hrs]; rfl) _ hne
      simp only [List.cons_append, List.map_cons, List.sum_cons]
      omega
    simp only [syncGo, Bool.false_and, Bool.false_eq_true, if_false]
    split
    · rename_i hfull
      split
      · exact ⟨acc, rfl⟩
      · split
        · exact hrec acc
        · rename_i hmax
          have hne := h [] r rs rfl (by simpa using hfull) hmax
          rw [if_neg (by simpa using hne)]
          exact hrec _
    · exact hrec acc

theorem syncGo_entry {b : Bracket F} {sort : Argsort} {obj : Bool} {rows : List (Row P F)}
    (hnan : ∀ x ∈ rows, x.perf.isNan = false) (rs : List Nat) :
    ∀ {total : Nat} {acc ps : List (Nat × List Nat)},
      syncGo b sort obj rows rs total acc = .ok ps →
      (∀ e ∈ acc, e ∈ ps) ∧ ∀ pre r post, rs = pre ++ r :: post →
        b.cap r ≤ total + ((pre ++ [r]).map (fun r' => (atRung rows r').length)).sum →
        r ≠ b.maxR → (r, syncSel b sort rows r) ∈ ps := by
  induction rs with
  | nil =>
    intro total acc ps h
    simp only [syncGo, Except.ok.injEq] at h
    subst h
    exact ⟨fun e he => he, fun pre r post hrs => by simp at hrs⟩
  | cons r rs ih =>
    intro total acc ps h
    have hno : (atRung rows r).any (·.perf.isNan) = false := by
      rw [List.any_eq_false]
      intro x hx
      simp [hnan x (mem_atRung.1 hx).1]
    simp only [syncGo, hno, Bool.false_eq_true, if_false] at h
    have hrec : ∀ {acc'}, syncGo b sort obj rows rs (total + (atRung rows r).length) acc' = .ok ps →
        (∀ e ∈ acc, e ∈ acc') →
        (b.cap r ≤ total + (atRung rows r).length → r ≠ b.maxR →
          (r, syncSel b sort rows r) ∈ acc') →
        (∀ e ∈ acc, e ∈ ps) ∧ ∀ pre r' post, r :: rs = pre ++ r' :: post →
          b.cap r' ≤ total + ((pre ++ [r']).map (fun r' => (atRung rows r').length)).sum →
          r' ≠ b.maxR → (r', syncSel b sort rows r') ∈ ps := by
      intro acc' h' hacc hhere
      obtain ⟨i1, i2⟩ := ih h'
      refine ⟨fun e he => i1 e (hacc e he), ?_⟩
      intro pre r' post hrs hcap hne
      cases pre with
      | nil =>
        simp only [List.nil_append, List.cons.injEq] at hrs
        obtain ⟨rfl, rfl⟩ := hrs
        exact i1 _ (hhere (by simpa using hcap) hne)
      | cons a pre =>
        simp only [List.cons_append, List.cons.injEq] at hrs
        obtain ⟨rfl, rfl⟩ := hrs
        apply i2 pre r' post rfl _ hne
        simp only [List.cons_append, List.map_cons, List.sum_cons] at hcap
        omega
    split at h
    · split at h
      · cases h
      · split at h
        · rename_i hmax
          exact hrec h (fun e he => he) (fun _ hne => absurd hmax hne)
        · split at h
          · cases h
          · exact hrec h (fun e he => List.mem_cons_of_mem _ he) (fun _ _ => List.mem_cons_self ..)
    · rename_i hfull
      exact hrec h (fun e he => he) (fun hc => absurd hc hfull)

theorem mem_rungsDesc {b : Bracket F} {r : Nat} (h1 : b.minR ≤ r) (h2 : r ≤ b.maxR) :
    ∃ pre post, b.rungsDesc = pre ++ r :: post := by
  apply List.append_of_mem
  simp only [Bracket.rungsDesc, List.mem_reverse, List.mem_range'_1]
  omega

theorem total_reached {b : Bracket F} {rows : List (Row P F)} {pre post : List Nat} {r : Nat}
    (h : b.rungsDesc = pre ++ r :: post) :
    ((pre ++ [r]).map (fun r' => (atRung rows r').length)).sum = reached rows r b.maxR := by
  obtain ⟨_, h2, h3⟩ := rungsDesc_split h
  rw [h3, List.map_reverse, List.sum_reverse, reached_eq]
  simp only [reached]
  rw [show r + (b.maxR + 1 - r) = b.maxR + 1 by omega]
  simp only [Nat.lt_succ_iff]

theorem promotionCount_ge {ps : List (Nat × List Nat)} {r : Nat} {l : List Nat} (h : (r, l) ∈ ps) :
    l.length ≤ promotionCount ps := by
  simp only [promotionCount]
  induction ps with
  | nil => cases h
  | cons x ps ih =>
    simp only [List.map_cons, List.sum_cons]
    rcases List.mem_cons.1 h with rfl | h
    · simp only; omega
    · have := ih h; omega

section slices

variable {st : Settings} {budget : Nat → F} {bs : Nat → Bracket F} {nb : Nat}
  {H H' : List (Rec P F)} {T : Table P F}

/-- The rows of the `k`-th bracket. -/
abbrev sliceRows (bs : Nat → Bracket F) (nb off : Nat) (T : Table P F) (k : Nat) : List (Row P F) :=
  (T.rows.drop (sliceStart bs nb off k)).take (bs (k % nb)).size

/-- A full rung below the highest one still has members that were not promoted. -/
theorem rung_nonempty {off : Nat} (hI : Inv budget H) (hO : Occ bs nb off H) (hp : H'.Perm H)
    (ho : observe st H' = .ok T) (k : Nat) (hg : Good (bs (k % nb))) {r : Nat}
    (h1 : (bs (k % nb)).minR ≤ r) (h2 : r < (bs (k % nb)).maxR)
    (hfull : (bs (k % nb)).cap r ≤ reached (sliceRows bs nb off T k) r (bs (k % nb)).maxR) :
    atRung (sliceRows bs nb off T k) r ≠ [] := by
  have hq' := hO.quota k (r + 1) (by omega) (by omega)
  have e2 : reached (sliceRows bs nb off T k) (r + 1) (bs (k % nb)).maxR = _ :=
    reached_slice hI hO hp ho k (r := r + 1) (by omega)
  have e3 := atRung_reached (sliceRows bs nb off T k) r (bs (k % nb)).maxR (by omega)
  have hpos := hg.cap_pos (r + 1) (by omega) (by omega)
  have heta := hg.eta
  have hnext := hg.next r h1 h2
  have hmul : 2 * (bs (k % nb)).cap (r + 1) ≤ (bs (k % nb)).eta * (bs (k % nb)).cap (r + 1) :=
    Nat.mul_le_mul_right _ heta
  intro hnil
  rw [hnil] at e3
  simp only [List.length_nil, Nat.zero_add] at e3
  omega

/-- In a history without strings in the column, the synchronous policy does not raise. -/
theorem sync_total {off : Nat} {sort : Argsort} (hI : Inv budget H) (hO : Occ bs nb off H)
    (hp : H'.Perm H) (ho : observe st H' = .ok T) (k : Nat) (hg : Good (bs (k % nb))) :
    ∃ ps, syncPromotions (bs (k % nb)) sort false (sliceRows bs nb off T k) = .ok ps := by
  apply syncGo_total
  intro pre r post hrs hcap hne
  obtain ⟨h1, h2, _⟩ := rungsDesc_split hrs
  rw [total_reached hrs, Nat.zero_add] at hcap
  exact rung_nonempty hI hO hp ho k hg h1 (by omega) hcap

/-- A full bracket with a free place and no open evaluation offers a promotion. -/
theorem sync_progress {off : Nat} {sort : Argsort} {obj : Bool} (hsort : Sorts sort) (hI : Inv budget H)
    (hO : Occ bs nb off H) (hp : H'.Perm H) (ho : observe st H' = .ok T) (k : Nat)
    (hg : Good (bs (k % nb))) {ps : List (Nat × List Nat)}
    (hs : syncPromotions (bs (k % nb)) sort obj (sliceRows bs nb off T k) = .ok ps)
    (hnan : ∀ x ∈ sliceRows bs nb off T k, x.perf.isNan = false)
    (hbase : evaluatedAt H (sliceStart bs nb off k) (bs (k % nb)).size (bs (k % nb)).minR
      = (bs (k % nb)).cap (bs (k % nb)).minR)
    (hfree : ∃ r, (bs (k % nb)).minR ≤ r ∧ r ≤ (bs (k % nb)).maxR ∧
      evaluatedAt H (sliceStart bs nb off k) (bs (k % nb)).size r < (bs (k % nb)).cap r) :
    promotionCount ps ≠ 0 := by
  -- the first rung that is not full
  have hfirst : ∃ r, (bs (k % nb)).minR ≤ r ∧ r < (bs (k % nb)).maxR ∧
      evaluatedAt H (sliceStart bs nb off k) (bs (k % nb)).size r = (bs (k % nb)).cap r ∧
      evaluatedAt H (sliceStart bs nb off k) (bs (k % nb)).size (r + 1) < (bs (k % nb)).cap (r + 1) := by
    obtain ⟨r, h1, h2, h3⟩ := hfree
    by_contra hno
    push Not at hno
    have hall : ∀ d, (bs (k % nb)).minR + d ≤ (bs (k % nb)).maxR →
        evaluatedAt H (sliceStart bs nb off k) (bs (k % nb)).size ((bs (k % nb)).minR + d)
          = (bs (k % nb)).cap ((bs (k % nb)).minR + d) := by
      intro d
      induction d with
      | zero => intro _; exact hbase
      | succ d ih =>
        intro hd
        have e := hno ((bs (k % nb)).minR + d) (by omega) (by omega) (ih (by omega))
        have hq := hO.quota k ((bs (k % nb)).minR + d + 1) (by omega) (by omega)
        exact Nat.le_antisymm hq e
    have := hall (r - (bs (k % nb)).minR) (by omega)
    rw [show (bs (k % nb)).minR + (r - (bs (k % nb)).minR) = r by omega] at this
    omega
  obtain ⟨r, h1, h2, h3, h4⟩ := hfirst
  obtain ⟨pre, post, hrs⟩ := mem_rungsDesc h1 (Nat.le_of_lt h2)
  have hreach := reached_slice hI hO hp ho k h1
  have hmem := (syncGo_entry hnan _ hs).2 pre r post hrs
    (by rw [total_reached hrs, hreach]; omega) (by omega)
  obtain ⟨_, hk2, _⟩ := topK_eq hI hO hp ho k hg h1 h2 (by rw [hreach]; omega)
  have hlen : (syncSel (bs (k % nb)) sort (sliceRows bs nb off T k) r).length ≠ 0 := by
    simp only [syncSel, List.length_map]
    rw [hk2, pyTake_nat, pick_take (fun i hi => by
      have := sorts_lt hsort _ i hi
      simpa [floats] using this)]
    rw [List.length_take, (pick_perm hsort _).length_eq]
    have e2 := reached_slice hI hO hp ho k (r := r + 1) (by omega)
    have e3 := atRung_reached (sliceRows bs nb off T k) r (bs (k % nb)).maxR (by omega)
    have hne := rung_nonempty hI hO hp ho k hg h1 h2 (by rw [hreach]; omega)
    have : 0 < (atRung (sliceRows bs nb off T k) r).length := List.length_pos_iff.2 hne
    have hrow : (atRung ((T.rows.drop (sliceStart bs nb off k)).take (bs (k % nb)).size) r).length
      = (atRung (sliceRows bs nb off T k) r).length := rfl
    omega
  intro hz
  apply hlen
  have := promotionCount_ge hmem
  omega

/-- The loop started at bracket `k` ends at bracket `k'`; the full brackets in between are finished
or have nothing to promote. -/
structure LoopEnd (bs : Nat → Bracket F) (nb off : Nat) (T : Table P F) (sort : Argsort) (obj : Bool)
    (k cur' : Nat) (ps : List (Nat × List Nat)) (k' : Nat) : Prop where
  le : k ≤ k'
  cur : cur' = k' % nb
  sync : syncPromotions (bs cur') sort obj (sliceRows bs nb off T k') = .ok ps
  stop : promotionCount ps ≠ 0 ∨ T.rows.length < sliceStart bs nb off (k' + 1)
  skipped : ∀ j, k ≤ j → j < k' → sliceStart bs nb off (j + 1) ≤ T.rows.length ∧
    (¬ budgetUsed (bs (j % nb)) ((sliceRows bs nb off T j).map (·.rung))
        < (rungTrace (bs (j % nb))).sum ∨
      ∃ ps', syncPromotions (bs (j % nb)) sort obj (sliceRows bs nb off T j) = .ok ps' ∧
        promotionCount ps' = 0)

/-- The loop of hyperband over the brackets. -/
theorem hbLoop_slices {off : Nat} {sort : Argsort} {obj : Bool}
    (hg : ∀ i, i < nb → Good (bs i)) (hnb : 0 < nb)
    (hdrop : ∀ k, dropDefault st (sliceRows bs nb off T k) = sliceRows bs nb off T k) (n : Nat) :
    ∀ (k cur' : Nat) (ps : List (Nat × List Nat)), (T.rows.drop (sliceStart bs nb off k)).length = n →
      hbLoop st bs nb sort obj (k % nb) (T.rows.drop (sliceStart bs nb off k)) = .ok (cur', ps) →
      ∃ k', LoopEnd bs nb off T sort obj k cur' ps k' := by
  induction n using Nat.strong_induction_on with
  | _ n ih =>
    intro k cur' ps hn h
    have hgk := hg (k % nb) (Nat.mod_lt _ hnb)
    have hpos := hgk.size_pos
    have hd : dropDefault st ((T.rows.drop (sliceStart bs nb off k)).take
        ((bs (k % nb)).cap (bs (k % nb)).minR)) = sliceRows bs nb off T k := hdrop k
    rw [hbLoop] at h
    split at h
    · rename_i hc
      have hfull : sliceStart bs nb off (k + 1) ≤ T.rows.length := by
        have := hc.2
        rw [List.length_drop] at this
        simp only [sliceStart, Bracket.size]
        omega
      have hnext : (T.rows.drop (sliceStart bs nb off k)).drop ((bs (k % nb)).cap (bs (k % nb)).minR)
          = T.rows.drop (sliceStart bs nb off (k + 1)) := by
        rw [List.drop_drop]; rfl
      have hmod : (k % nb + 1) % nb = (k + 1) % nb := by simp
      rw [hnext, hmod] at h
      have hrec : hbLoop st bs nb sort obj ((k + 1) % nb) (T.rows.drop (sliceStart bs nb off (k + 1)))
            = .ok (cur', ps) →
          (¬ budgetUsed (bs (k % nb)) ((sliceRows bs nb off T k).map (·.rung))
              < (rungTrace (bs (k % nb))).sum ∨
            ∃ ps', syncPromotions (bs (k % nb)) sort obj (sliceRows bs nb off T k) = .ok ps' ∧
              promotionCount ps' = 0) → ∃ k', LoopEnd bs nb off T sort obj k cur' ps k' := by
        intro h' hskip
        obtain ⟨k', h1, h2, h3, h4, h5⟩ := ih _ (by
          rw [← hn, List.length_drop, List.length_drop]
          simp only [sliceStart] at hfull ⊢
          omega) (k + 1) cur' ps rfl h'
        refine ⟨k', by omega, h2, h3, h4, ?_⟩
        intro j hj hj'
        rcases Nat.eq_or_lt_of_le hj with he | hlt
        · subst he; exact ⟨hfull, hskip⟩
        · exact h5 j hlt hj'
      simp only [hd] at h
      split at h
      · cases hs : syncPromotions (bs (k % nb)) sort obj (sliceRows bs nb off T k) with
        | error e => simp [hs] at h
        | ok ps' =>
          simp only [hs] at h
          split at h
          · rename_i hne
            simp only [Except.ok.injEq, Prod.mk.injEq] at h
            obtain ⟨rfl, rfl⟩ := h
            exact ⟨k, Nat.le_refl _, rfl, hs, Or.inl hne, fun j h1 h2 => by omega⟩
          · rename_i hz
            exact hrec h (Or.inr ⟨ps', hs, by omega⟩)
      · rename_i hb
        exact hrec h (Or.inl hb)
    · rename_i hc
      simp only [hd] at h
      cases hs : syncPromotions (bs (k % nb)) sort obj (sliceRows bs nb off T k) with
      | error e => simp [hs] at h
      | ok ps' =>
        simp only [hs, Except.ok.injEq, Prod.mk.injEq] at h
        obtain ⟨rfl, rfl⟩ := h
        refine ⟨k, Nat.le_refl _, rfl, hs, Or.inr ?_, fun j h1 h2 => by omega⟩
        rw [List.length_drop] at hc
        simp only [sliceStart, Bracket.size] at hpos ⊢
        omega

/-- The loop ends with an answer if the policy does. -/
theorem hbLoop_total {off : Nat} {sort : Argsort} {obj : Bool}
    (hdrop : ∀ k, dropDefault st (sliceRows bs nb off T k) = sliceRows bs nb off T k)
    (hall : ∀ k, ∃ ps, syncPromotions (bs (k % nb)) sort obj (sliceRows bs nb off T k) = .ok ps)
    (n : Nat) :
    ∀ k, (T.rows.drop (sliceStart bs nb off k)).length = n →
      ∃ res, hbLoop st bs nb sort obj (k % nb) (T.rows.drop (sliceStart bs nb off k)) = .ok res := by
  induction n using Nat.strong_induction_on with
  | _ n ih =>
    intro k hn
    obtain ⟨ps, hs⟩ := hall k
    have hd : dropDefault st ((T.rows.drop (sliceStart bs nb off k)).take
        ((bs (k % nb)).cap (bs (k % nb)).minR)) = sliceRows bs nb off T k := hdrop k
    rw [hbLoop]
    split
    · rename_i hc
      have hnext : (T.rows.drop (sliceStart bs nb off k)).drop ((bs (k % nb)).cap (bs (k % nb)).minR)
          = T.rows.drop (sliceStart bs nb off (k + 1)) := by
        rw [List.drop_drop]; rfl
      have hmod : (k % nb + 1) % nb = (k + 1) % nb := by simp
      rw [hnext, hmod]
      have hrec := ih _ (by
          rw [← hn, ← hnext, List.length_drop]
          omega) (k + 1) rfl
      simp only
      split
      · simp only [hd, hs]
        split
        · exact ⟨_, rfl⟩
        · exact hrec
      · exact hrec
    · simp only [hd, hs]
      exact ⟨_, rfl⟩

end slices

/-! ## No exceptions -/

section total

variable {st : Settings} {budget : Nat → F} {H H' : List (Rec P F)} {T : Table P F}

/-- Failed evaluations, if any, have a replacement loss. -/
def Lossy (st : Settings) (H : List (Rec P F)) : Prop :=
  ∀ t ∈ H, t.res = .error → st.ignoreErrors = false ∧ st.lossOnError ≠ none

theorem Lossy.getLoss {t : Rec P F} (h : Lossy st H) (ht : t ∈ H) :
    ∃ x, getLoss st t.res = .ok (.val x) := by
  cases hr : t.res with
  | pending => exact ⟨_, rfl⟩
  | loss x => exact ⟨x, rfl⟩
  | error =>
    obtain ⟨h1, h2⟩ := h t ht hr
    cases ho : st.lossOnError with
    | none => exact absurd ho h2
    | some x => exact ⟨x, by simp [MF.getLoss, h1, ho]⟩

theorem observe_total (h : Lossy st H) (hp : H'.Perm H) : ∃ T, observe st H' = .ok T := by
  simp only [observe, load_eq]
  rw [if_neg]
  · exact ⟨_, rfl⟩
  · rw [Bool.not_eq_true, List.any_eq_false]
    intro t ht
    obtain ⟨x, hx⟩ := h.getLoss (hp.mem_iff.1 (List.mem_filter.1 ht).1)
    simp [raises, hx]

theorem no_strings (h : Lossy st H) (hI : Inv budget H) (hp : H'.Perm H)
    (ho : observe st H' = .ok T) : ∀ x ∈ T.rows, x.perf ≠ .error := by
  intro x hx he
  obtain ⟨_, t, ht, _, _, hl, _⟩ := observe_row hI hp ho ((mem_rows hI hp ho x).1 hx)
  obtain ⟨y, hy⟩ := h.getLoss ht
  rw [hy, he] at hl
  cases hl

theorem hasError_false {rows : List (Row P F)} (h : ∀ x ∈ rows, x.perf ≠ .error) :
    hasError rows = false := by
  simp only [hasError, List.any_eq_false]
  intro x hx
  simp [h x hx]

theorem getConfig_total {b : Bracket F} {ps : List (Nat × List Nat)} (hI : Inv budget H)
    (hp : H'.Perm H) (ho : observe st H' = .ok T) (hps : PromoOK T ps) (new : P) :
    ∃ p, getConfigAndIds st b T ps new = .ok p := by
  simp only [getConfigAndIds]
  cases hprom : isPromotable b ps with
  | none => exact ⟨_, rfl⟩
  | some r =>
    have hfind := List.find?_some hprom
    simp only
    cases hh : (promosAt ps r).head? with
    | none =>
      rw [List.head?_eq_none_iff] at hh
      simp [hh] at hfind
    | some c =>
      obtain ⟨l, hl, hcl⟩ := promosAt_mem (List.mem_of_mem_head? hh)
      obtain ⟨row, hrow, rfl, _, _⟩ := hps r l hl c hcl
      simp only
      rw [rows_get hI hp ho, (mem_rows hI hp ho row).1 hrow]
      exact ⟨_, rfl⟩

theorem asyncGo_total {eta : Nat} {sort : Argsort} {rows : List (Row P F)}
    (h : ∀ x ∈ rows, x.perf ≠ .error) (rs : List Nat) :
    ∃ ps, asyncGo eta 0 sort rows rs = .ok ps := by
  induction rs with
  | nil => exact ⟨[], rfl⟩
  | cons r rs ih =>
    obtain ⟨ps, hps⟩ := ih
    simp only [asyncGo]
    rw [if_neg (by simp), if_neg, hps]
    · exact ⟨_, rfl⟩
    · rw [hasError_false (fun x hx => h x (mem_atRung.1 hx).1)]
      simp

end total

end Neps.MF
