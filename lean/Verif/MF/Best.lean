import Verif.MF.Select

/-! # Without repeated reports, the promoted configurations of a rung are the best ones -/

namespace Neps.MF

variable {P F : Type}

theorem ReachOnce.reach {A : AskFn P F → Prop} {H : List (Rec P F)} (h : ReachOnce A H) : Reach A H := by
  induction h with
  | start => exact .start
  | ask _ hf hp hask ih => exact .ask ih hf hp hask
  | report k res _ hres _ ih => exact .report k res ih hres

/-- Between a promoted and an unpromoted trial of a rung of a bracket. -/
structure BestInv (st : Settings) (bs : Nat → Bracket F) (nb off : Nat) (H : List (Rec P F)) : Prop where
  full : ∀ k, ∀ t ∈ H, InSlice (sliceStart bs nb off k) (bs (k % nb)).size t →
    (bs (k % nb)).minR ≤ t.key.rung → ¬ Unpromoted H t →
    evaluatedAt H (sliceStart bs nb off k) (bs (k % nb)).size t.key.rung = (bs (k % nb)).cap t.key.rung
  best : ∀ k, ∀ t ∈ H, ∀ t' ∈ H, t.key.rung = t'.key.rung →
    InSlice (sliceStart bs nb off k) (bs (k % nb)).size t →
    InSlice (sliceStart bs nb off k) (bs (k % nb)).size t' →
    ¬ Unpromoted H t → Unpromoted H t' →
    ∃ x x', lossOf st t = some x ∧ lossOf st t' = some x' ∧ PyFloat.le x x' = true

theorem evaluatedAt_mono (H : List (Rec P F)) (t : Rec P F) (start n r : Nat) :
    evaluatedAt H start n r ≤ evaluatedAt (H ++ [t]) start n r := by
  simp only [evaluatedAt]
  apply List.countP_mono_left
  intro c _ hc
  simp only [decide_eq_true_eq] at hc ⊢
  rw [List.map_append]
  exact List.mem_append_left _ hc

theorem evaluatedAt_new {H : List (Rec P F)} {t : Rec P F} {start n : Nat}
    (hin : InSlice start n t) (hnew : t.key ∉ H.map (·.key)) :
    evaluatedAt H start n t.key.rung < n := by
  simp only [evaluatedAt]
  have hlen := List.countP_le_length (p := fun c => decide ((⟨c, t.key.rung⟩ : Key) ∈ H.map (·.key)))
    (l := List.range' start n)
  rw [List.length_range'] at hlen
  rcases Nat.lt_or_eq_of_le hlen with h | h
  · exact h
  · exfalso
    have := List.countP_eq_length.1 (h.trans (List.length_range' (s := start) (n := n) (step := 1)).symm)
    have hm := this t.key.cfg (by rw [List.mem_range'_1]; exact ⟨hin.1, hin.2⟩)
    exact hnew (of_decide_eq_true hm)

theorem le_trans' {a b c : PyFloat} (h1 : PyFloat.le a b = true) (h2 : PyFloat.le b c = true) :
    PyFloat.le a c = true := by
  cases a <;> cases b <;> cases c <;> simp_all [PyFloat.le]
  exact le_trans h1 h2

theorem BestInv.ask {st : Settings} {budget : Nat → F} {bs : Nat → Bracket F} {nb : Nat}
    {H H' : List (Rec P F)} {sort : Argsort} {new : P} {p : Proposal P F}
    (hbud : ∀ i, i < nb → Agrees (bs i) budget)
    (hg : ∀ i, i < nb → Good (bs i)) (hnb : 0 < nb) (hsort : Sorts sort)
    (hI : Inv budget H) (hO : Occ bs nb st.offset H) (hB : BestInv st bs nb st.offset H)
    (hp : H'.Perm H) (h : hbAsk st bs nb sort H' new = .ok p) :
    BestInv st bs nb st.offset (H ++ [p.toRec]) := by
  have hO' := hO.ask hg hnb hI hp h
  have hfresh : p.key ∉ H.map (·.key) := by
    obtain ⟨st', b, T, ps, hT, hps, hb, hget⟩ := ask_result (IsMF.hb st bs nb hbud hnb)
      (f := hbAsk st bs nb sort) ⟨sort, hsort, rfl⟩ h
    have hc := proposal_cases hb hI hp hT hps hget
    rcases hc with hc | ⟨h1, h2, h3, h4, _⟩
    · exact (Inv.snoc hI (Or.inl hc)).1
    · exact (Inv.snoc hI (Or.inr ⟨h1, h2, h3, h4⟩)).1
  -- an unpromoted trial stays unpromoted unless it is the one that `p` continues
  have hup : ∀ t ∈ H, ¬ Unpromoted (H ++ [p.toRec]) t → ¬ Unpromoted H t ∨
      p.key = ⟨t.key.cfg, t.key.rung + 1⟩ := by
    intro t _ hn
    by_cases hU : Unpromoted H t
    · right
      simp only [Unpromoted, List.map_append, List.mem_append, not_not] at hn
      rcases hn with hn | hn
      · exact absurd hn hU
      · simp only [Proposal.toRec, List.map_cons, List.map_nil, List.mem_singleton] at hn
        exact hn.symm
    · exact Or.inl hU
  have hup' : ∀ t, Unpromoted (H ++ [p.toRec]) t → Unpromoted H t := by
    intro t hU hm
    apply hU
    rw [List.map_append]
    exact List.mem_append_left _ hm
  -- the new trial has not been promoted
  have hnewU : ∀ k, InSlice (sliceStart bs nb st.offset k) (bs (k % nb)).size p.toRec →
      Unpromoted (H ++ [p.toRec]) p.toRec := by
    intro k hin hm
    rw [List.map_append, List.mem_append] at hm
    rcases hm with hm | hm
    · obtain ⟨t, ht, hk⟩ := List.mem_map.1 hm
      have h2 : t.key.cfg < sliceStart bs nb st.offset (k + 1) := by
        rw [hk]; simp only [sliceStart]; exact hin.2
      have h1 : sliceStart bs nb st.offset k ≤ t.key.cfg := by rw [hk]; exact hin.1
      have hrange := hO'.range k p.toRec (by simp) hin.1 (by simp only [sliceStart]; exact hin.2)
      have hb := hO.below k t ht h1 h2 (by rw [hk]; exact Nat.lt_succ_of_le hrange.1)
      rw [hk] at hb
      exact hfresh hb
    · simp only [List.map_cons, List.map_nil, List.mem_singleton] at hm
      have := congrArg Key.rung hm
      simp at this
  -- what the new trial continues, if anything
  have hprom : ∀ t ∈ H, p.key = ⟨t.key.cfg, t.key.rung + 1⟩ → ∀ k,
      InSlice (sliceStart bs nb st.offset k) (bs (k % nb)).size t →
      evaluatedAt H (sliceStart bs nb st.offset k) (bs (k % nb)).size t.key.rung
        = (bs (k % nb)).cap t.key.rung ∧
      ∃ x0, lossOf st t = some x0 ∧ ∀ t' ∈ H, t'.key.rung = t.key.rung →
        InSlice (sliceStart bs nb st.offset k) (bs (k % nb)).size t' → Unpromoted H t' →
        ∃ x, lossOf st t' = some x ∧ PyFloat.le x0 x = true := by
    intro t ht hkey k hin
    cases hprev : p.prev with
    | none =>
      exfalso
      obtain ⟨st', b, T, ps, hT, hps, hb, hget⟩ := ask_result (IsMF.hb st bs nb hbud hnb)
        (f := hbAsk st bs nb sort) ⟨sort, hsort, rfl⟩ h
      rcases proposal_cases hb hI hp hT hps hget with ⟨_, _, h1, _⟩ | ⟨_, h1, _⟩
      · rw [hprev] at h1; cases h1
      · have := h1 t ht
        rw [hkey] at this
        simp at this
    | some k0 =>
      obtain ⟨j, t0, ht0, hk0, _, hpk, hin0, _, _, hfull, _, x0, hx0, hb⟩ :=
        hb_promotion hg hnb hsort hI hO hp h hprev
      have he : t.key = k0 := by
        rw [hkey] at hpk
        cases hk1 : t.key; cases hk2 : k0
        rw [hk1, hk2] at hpk
        simp only [Key.mk.injEq] at hpk ⊢
        omega
      have htt : t = t0 := inj_of_nodup_map hI.nodup ht ht0 (by rw [he, hk0])
      have hjk : j = k := slice_unique hg hnb hin0.1
        (by simp only [sliceStart]; exact hin0.2) (by rw [← htt]; exact hin.1)
        (by rw [← htt]; simp only [sliceStart]; exact hin.2)
      subst hjk
      subst htt
      subst he
      exact ⟨hfull, x0, hx0, hb⟩
  refine ⟨?_, ?_⟩
  · intro k t ht hin hmin hn
    rcases List.mem_append.1 ht with ht | ht
    · have hH : evaluatedAt H (sliceStart bs nb st.offset k) (bs (k % nb)).size t.key.rung
          = (bs (k % nb)).cap t.key.rung := by
        rcases hup t ht hn with hU | hk
        · exact hB.full k t ht hin hmin hU
        · exact (hprom t ht hk k hin).1
      have hrange := hO.range k t ht hin.1 (by simp only [sliceStart]; exact hin.2)
      have := hO'.quota k t.key.rung hrange.1 hrange.2
      have h2 := evaluatedAt_mono H p.toRec (sliceStart bs nb st.offset k) (bs (k % nb)).size t.key.rung
      omega
    · simp only [List.mem_singleton] at ht
      subst ht
      exact absurd (hnewU k hin) hn
  · intro k t ht t' ht' hr hin hin' hn hU'
    rcases List.mem_append.1 ht with ht | ht
    · rcases List.mem_append.1 ht' with ht' | ht'
      · rcases hup t ht hn with hU | hk
        · exact hB.best k t ht t' ht' hr hin hin' hU (hup' t' hU')
        · obtain ⟨_, x0, hx0, hb⟩ := hprom t ht hk k hin
          obtain ⟨x, hx, hle⟩ := hb t' ht' hr.symm hin' (hup' t' hU')
          exact ⟨x0, x, hx0, hx, hle⟩
      · -- the rung of `t` is full, so the new trial cannot be there
        exfalso
        simp only [List.mem_singleton] at ht'
        subst ht'
        have hrange := hO.range k t ht hin.1 (by simp only [sliceStart]; exact hin.2)
        have hrange' := hO'.range k p.toRec (by simp) hin'.1 (by simp only [sliceStart]; exact hin'.2)
        have hH : evaluatedAt H (sliceStart bs nb st.offset k) (bs (k % nb)).size t.key.rung
            = (bs (k % nb)).cap t.key.rung := by
          rcases hup t ht hn with hU | hk
          · exact hB.full k t ht hin hrange.1 hU
          · exact (hprom t ht hk k hin).1
        have hkr : p.toRec.key = p.key := rfl
        by_cases hmin : t.key.rung = (bs (k % nb)).minR
        · have := evaluatedAt_new hin' (by rw [hkr]; exact hfresh)
          rw [← hr, hH, hmin] at this
          exact absurd this (Nat.lt_irrefl _)
        · -- the new trial continues one a rung lower
          have hb := hO'.below k p.toRec (by simp) hin'.1 (by simp only [sliceStart]; exact hin'.2)
            (by rw [← hr]; omega)
          rw [List.map_append, List.mem_append] at hb
          rcases hb with hb | hb
          · obtain ⟨t0, ht0, hk0⟩ := List.mem_map.1 hb
            have hpk : p.key = ⟨t0.key.cfg, t0.key.rung + 1⟩ := by
              rw [hk0]
              rw [hkr] at hr hrange' ⊢
              cases hpk : p.key
              rw [hpk] at hr hrange'
              simp only [Key.mk.injEq, true_and] at hr hrange' ⊢
              omega
            cases hprev : p.prev with
            | none =>
              obtain ⟨st', b, T, ps, hT, hps, hb', hget⟩ := ask_result (IsMF.hb st bs nb hbud hnb)
                (f := hbAsk st bs nb sort) ⟨sort, hsort, rfl⟩ h
              rcases proposal_cases hb' hI hp hT hps hget with ⟨_, _, h1, _⟩ | ⟨_, h1, _⟩
              · rw [hprev] at h1; cases h1
              · have := h1 t0 ht0
                rw [hpk] at this
                simp at this
            | some k0 =>
              obtain ⟨j, t1, ht1, hk1, _, hpk1, hin1, _, _, _, hfree, _⟩ :=
                hb_promotion hg hnb hsort hI hO hp h hprev
              have hjk : j = k := by
                have hc : t1.key.cfg = p.key.cfg := by rw [hpk1, hk1]
                refine slice_unique hg hnb hin1.1 (by simp only [sliceStart]; exact hin1.2)
                  (by rw [hc]; exact hin'.1) (by rw [hc]; simp only [sliceStart]; exact hin'.2)
              subst hjk
              have hrr : k0.rung + 1 = t.key.rung := by
                rw [hr, hkr, hpk1]
              rw [hrr, hH] at hfree
              exact absurd hfree (Nat.lt_irrefl _)
          · simp only [List.map_cons, List.map_nil, List.mem_singleton] at hb
            have := congrArg Key.rung hb
            simp only at this
            omega
    · simp only [List.mem_singleton] at ht
      subst ht
      exact absurd (hnewU k hin) hn

theorem lossOf_some {st : Settings} {t : Rec P F} {x : PyFloat} (h : lossOf st t = some x) :
    t.res ≠ .pending := by
  intro hr
  simp [lossOf, hr] at h

theorem BestInv.onReport {st : Settings} {bs : Nat → Bracket F} {nb off : Nat} {H : List (Rec P F)}
    (hB : BestInv st bs nb off H) (k : Key) (res : Res) (hpend : ∀ t ∈ H, t.key = k → t.res = .pending) :
    BestInv st bs nb off (report k res H) := by
  have hU : ∀ (t t0 : Rec P F), t.key = t0.key → (Unpromoted (report k res H) t ↔ Unpromoted H t0) := by
    intro t t0 hk
    simp only [Unpromoted, report_keys, hk]
  have hmem : ∀ t ∈ report k res H, ∃ t0 ∈ H, t.key = t0.key ∧ (t = t0 ∨ t0.res = .pending) := by
    intro t ht
    obtain ⟨t0, ht0, rfl⟩ := List.mem_map.1 ht
    refine ⟨t0, ht0, ?_⟩
    split
    · rename_i hk; exact ⟨rfl, Or.inr (hpend t0 ht0 hk)⟩
    · exact ⟨rfl, Or.inl rfl⟩
  refine ⟨?_, ?_⟩
  · intro j t ht hin hmin hn
    obtain ⟨t0, ht0, hk, _⟩ := hmem t ht
    rw [hU t t0 hk] at hn
    simp only [InSlice, hk] at hin hmin ⊢
    simp only [evaluatedAt, report_keys]
    exact hB.full j t0 ht0 hin hmin hn
  · intro j t ht t' ht' hr hin hin' hn hn'
    obtain ⟨t0, ht0, hk, he⟩ := hmem t ht
    obtain ⟨t1, ht1, hk', he'⟩ := hmem t' ht'
    rw [hU t t0 hk] at hn
    rw [hU t' t1 hk'] at hn'
    simp only [InSlice, hk] at hin
    simp only [InSlice, hk'] at hin'
    rw [hk, hk'] at hr
    obtain ⟨x, x', hx, hx', hle⟩ := hB.best j t0 ht0 t1 ht1 hr hin hin' hn hn'
    have e1 : t = t0 := he.resolve_right (lossOf_some hx)
    have e2 : t' = t1 := he'.resolve_right (lossOf_some hx')
    exact ⟨x, x', by rw [e1]; exact hx, by rw [e2]; exact hx', hle⟩

theorem ReachOnce.best {st : Settings} {bs : Nat → Bracket F} {nb : Nat} {budget : Nat → F}
    (hbud : ∀ i, i < nb → Agrees (bs i) budget)
    (hg : ∀ i, i < nb → Good (bs i)) (hnb : 0 < nb) {H : List (Rec P F)}
    (h : ReachOnce (IsHB st bs nb) H) : BestInv st bs nb st.offset H := by
  induction h with
  | start => exact ⟨by simp, by simp⟩
  | ask hr hf hp hask ih =>
    obtain ⟨sort, hsort, rfl⟩ := hf
    exact BestInv.ask hbud hg hnb hsort (hr.reach.inv (.hb st bs nb hbud hnb))
      (hr.reach.occ hbud hg hnb) ih hp hask
  | report k res _ _ hpend ih => exact ih.onReport k res hpend

end Neps.MF
