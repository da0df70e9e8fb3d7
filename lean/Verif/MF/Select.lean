import Verif.MF.Occupancy

/-! # From the selected rows back to the trials -/

namespace Neps.MF

variable {P F : Type}

theorem lossOf_of_val {st : Settings} {t : Rec P F} {x : PyFloat}
    (h : getLoss st t.res = .ok (.val x)) (hx : x ≠ .nan) :
    lossOf st t = some x ∧ t.res ≠ .pending := by
  simp only [lossOf]
  cases hr : t.res with
  | pending => rw [hr] at h; simp only [getLoss, Except.ok.injEq, Perf.val.injEq] at h; exact absurd h.symm hx
  | loss y => rw [hr] at h; simp only [getLoss, Except.ok.injEq, Perf.val.injEq] at h; simp [h]
  | error =>
    rw [hr] at h
    simp only [getLoss] at h
    split at h
    · simp at h
    · rename_i hi
      cases ho : st.lossOnError with
      | none => simp [ho] at h
      | some y => simp only [ho, Except.ok.injEq, Perf.val.injEq] at h; simp [hi, h]

/-- A proposal with a previous id comes from the head of a promotion list. -/
theorem getConfig_some {st : Settings} {b : Bracket F} {T : Table P F} {ps : List (Nat × List Nat)}
    {new : P} {p : Proposal P F} {k0 : Key} (h : getConfigAndIds st b T ps new = .ok p)
    (hprev : p.prev = some k0) :
    ∃ c row, (promosAt ps k0.rung).head? = some c ∧ T.rows[c]? = some row ∧ k0.cfg = row.cfg ∧
      b.minR ≤ k0.rung ∧ k0.rung < b.maxR ∧ p.key = ⟨row.cfg, k0.rung + 1⟩ := by
  simp only [getConfigAndIds] at h
  cases hprom : isPromotable b ps with
  | none =>
    simp only [hprom, Except.ok.injEq] at h
    subst h; cases hprev
  | some r =>
    simp only [hprom] at h
    cases hh : (promosAt ps r).head? with
    | none => simp [hh] at h
    | some c =>
      simp only [hh] at h
      cases hr : T.rows[c]? with
      | none => simp [hr] at h
      | some row =>
        simp only [hr, Except.ok.injEq] at h
        subst h
        simp only [Option.some.injEq] at hprev
        subst hprev
        have := List.mem_of_find?_eq_some hprom
        simp only [List.mem_reverse, List.mem_range'_1] at this
        exact ⟨c, row, hh, hr, rfl, by simp only; omega, by simp only; omega, rfl⟩

/-- What one ask of hyperband does. -/
theorem hb_ask_cases {st : Settings} {budget : Nat → F} {bs : Nat → Bracket F} {nb : Nat}
    {H H' : List (Rec P F)} {sort : Argsort} {new : P} {p : Proposal P F}
    (hg : ∀ i, i < nb → Good (bs i)) (hnb : 0 < nb)
    (hI : Inv budget H) (hp : H'.Perm H)
    (h : hbAsk st bs nb sort H' new = .ok p) :
    ∃ T k ps, observe st H' = .ok T ∧
      syncPromotions (bs (k % nb)) sort (hasError T.rows)
        ((T.rows.drop (sliceStart bs nb st.offset k)).take (bs (k % nb)).size) = .ok ps ∧
      getConfigAndIds st (bs (k % nb)) T ps new = .ok p := by
  simp only [hbAsk] at h
  cases ho : observe st H' with
  | error e => simp [ho] at h
  | ok T =>
    simp only [ho] at h
    cases hl : hbLoop st bs nb sort (hasError T.rows) 0 (bracketRows st T.rows) with
    | error e => simp [hl] at h
    | ok res =>
      obtain ⟨cur, ps⟩ := res
      simp only [hl] at h
      obtain ⟨rest', hsk, hs, hend⟩ := hbLoop_result _ _ _ rfl hl
      obtain ⟨k, hk, hrest, hstart⟩ := hsk.slices (rows := T.rows) (off := st.offset) 0 (by simp)
        (bracketRows_eq st T.rows)
      subst hk
      have hoff : st.offset ≤ sliceStart bs nb st.offset k := offset_le hg hnb k
      rw [hrest] at hs
      change syncPromotions _ _ _ (dropDefault st ((T.rows.drop _).take (bs (k % nb)).size)) = _ at hs
      rw [dropDefault_slice (rows_label hI hp ho) hoff] at hs
      exact ⟨T, k, ps, rfl, hs, h⟩

/-- The row of an unpromoted trial of a bracket. -/
theorem row_of_unpromoted {st : Settings} {budget : Nat → F} {bs : Nat → Bracket F} {nb off : Nat}
    {H H' : List (Rec P F)} {T : Table P F} (hI : Inv budget H) (hO : Occ bs nb off H)
    (hp : H'.Perm H) (ho : observe st H' = .ok T) {k : Nat} {t : Rec P F} (ht : t ∈ H)
    (hin : InSlice (sliceStart bs nb off k) (bs (k % nb)).size t) (hup : Unpromoted H t) :
    ∃ x, x ∈ atRung ((T.rows.drop (sliceStart bs nb off k)).take (bs (k % nb)).size) t.key.rung ∧
      x.cfg = t.key.cfg ∧ getLoss st t.res = .ok x.perf := by
  have h2 : t.key.cfg < sliceStart bs nb off (k + 1) := by simp only [sliceStart]; exact hin.2
  have hb := (observe_bound hI hp ho t.key.cfg).2 ⟨t, ht, rfl⟩
  cases hr : T.row t.key.cfg with
  | none => exact absurd rfl ((observe_none hI hp ho _).1 hr t ht)
  | some x =>
    obtain ⟨hc, t', ht', hk', _, hl, hm⟩ := observe_row hI hp ho hr
    have hxm : x ∈ T.rows := (mem_rows hI hp ho x).2 (by rw [hc]; exact hr)
    have hrange := hO.range k t ht hin.1 h2
    obtain ⟨_, _, hrr⟩ := row_rung hI hO hp ho hxm (k := k) (by rw [hc]; exact hin.1) (by rw [hc]; exact h2)
    have hge : t.key.rung ≤ x.rung := hm t ht rfl
    have hlt : ¬ t.key.rung + 1 ≤ x.rung := by
      rw [hrr _ (by omega), hc]; exact hup
    have hxr : x.rung = t.key.rung := by omega
    have htt : t' = t := by
      apply inj_of_nodup_map hI.nodup ht' ht
      rw [hk', hxr]
    refine ⟨x, ?_, hc, htt ▸ hl⟩
    rw [mem_atRung]
    refine ⟨?_, hxr⟩
    have hg : T.rows[t.key.cfg]? = some x := by rw [rows_get hI hp ho]; exact hr
    have : ((T.rows.drop (sliceStart bs nb off k)).take (bs (k % nb)).size)[t.key.cfg - sliceStart bs nb off k]?
        = some x := by
      have h3 := hin.1
      have h4 := hin.2
      rw [List.getElem?_take, if_pos (by omega), List.getElem?_drop]
      rw [show sliceStart bs nb off k + (t.key.cfg - sliceStart bs nb off k) = t.key.cfg by omega]
      exact hg
    exact List.mem_of_getElem? this

theorem head_pick_sorted {sort : Argsort} (hs : Sorts sort) {rows : List (Row P F)} {n c : Nat}
    (h : (((pick rows (sort (floats rows))).take n).map (·.cfg)).head? = some c) :
    ∃ x ∈ rows, x.cfg = c ∧ 0 < n ∧ ∀ y ∈ rows, x = y ∨ sortLe x.float y.float := by
  have hperm := pick_perm hs rows
  have hsort := pick_sorted hs rows
  cases hl : pick rows (sort (floats rows)) with
  | nil => simp [hl] at h
  | cons x l =>
    rw [hl] at h hperm hsort
    cases n with
    | zero => simp at h
    | succ n =>
      simp only [List.take_succ_cons, List.map_cons, List.head?_cons, Option.some.injEq] at h
      refine ⟨x, hperm.mem_iff.1 (by simp), h, by omega, ?_⟩
      intro y hy
      rcases List.mem_cons.1 (hperm.mem_iff.2 hy) with rfl | hy
      · exact Or.inl rfl
      · exact Or.inr ((List.pairwise_cons.1 hsort).1 y hy)

theorem pyTake_nat {A : Type} (n : Nat) (l : List A) : pyTake (n : Int) l = l.take n := by
  simp [pyTake]

theorem promosAt_head_mem {ps : List (Nat × List Nat)} {r c : Nat} (h : (promosAt ps r).head? = some c) :
    ∃ l, (r, l) ∈ ps ∧ l.head? = some c := by
  simp only [promosAt] at h
  cases hl : ps.lookup r with
  | none => simp [hl] at h
  | some l => exact ⟨l, lookup_mem hl, by simpa [hl] using h⟩

theorem float_val {x : Row P F} (h : x.perf ≠ .error) : x.perf = .val x.float := by
  simp only [Row.float]
  cases hp : x.perf with
  | val y => rfl
  | error => exact absurd hp h

theorem le_refl_of_ne_nan {a : PyFloat} (h : a ≠ .nan) : PyFloat.le a a = true := by
  cases a <;> simp_all [PyFloat.le]

/-- Promotions of hyperband. -/
theorem hb_promotion {st : Settings} {budget : Nat → F} {bs : Nat → Bracket F} {nb : Nat}
    {H H' : List (Rec P F)} {sort : Argsort} {new : P} {p : Proposal P F} {k0 : Key}
    (hg : ∀ i, i < nb → Good (bs i)) (hnb : 0 < nb) (hsort : Sorts sort)
    (hI : Inv budget H) (hO : Occ bs nb st.offset H) (hp : H'.Perm H)
    (h : hbAsk st bs nb sort H' new = .ok p) (hprev : p.prev = some k0) :
    ∃ k, ∃ t0 ∈ H, t0.key = k0 ∧ Unpromoted H t0 ∧ p.key = ⟨k0.cfg, k0.rung + 1⟩ ∧
      InSlice (sliceStart bs nb st.offset k) (bs (k % nb)).size t0 ∧
      (bs (k % nb)).minR ≤ k0.rung ∧ k0.rung < (bs (k % nb)).maxR ∧
      evaluatedAt H (sliceStart bs nb st.offset k) (bs (k % nb)).size k0.rung
        = (bs (k % nb)).cap k0.rung ∧
      evaluatedAt H (sliceStart bs nb st.offset k) (bs (k % nb)).size (k0.rung + 1)
        < (bs (k % nb)).cap (k0.rung + 1) ∧
      ∃ x0, lossOf st t0 = some x0 ∧ ∀ t ∈ H, t.key.rung = k0.rung →
        InSlice (sliceStart bs nb st.offset k) (bs (k % nb)).size t → Unpromoted H t →
        ∃ x, lossOf st t = some x ∧ PyFloat.le x0 x = true := by
  obtain ⟨T, k, ps, ho, hs, hget⟩ := hb_ask_cases hg hnb hI hp h
  obtain ⟨c, row, hh, hrow, hcfg, h1, h2, hkey⟩ := getConfig_some hget hprev
  obtain ⟨l, hlm, hhead⟩ := promosAt_head_mem hh
  obtain ⟨_, _, hfull, hnan, hne, hobj, hl⟩ := syncPromotions_mem hs hlm
  have hgk := hg (k % nb) (Nat.mod_lt _ hnb)
  obtain ⟨hq, hk2, hq'⟩ := topK_eq hI hO hp ho k hgk h1 h2 hfull
  have herr : ∀ x ∈ T.rows, x.perf ≠ .error := by
    intro x hx he
    have : hasError T.rows = true := by
      simp only [hasError, List.any_eq_true]
      exact ⟨x, hx, by simp [he]⟩
    rw [hobj] at this; cases this
  rw [hl] at hhead
  simp only [syncSel] at hhead
  rw [hk2, pyTake_nat, pick_take] at hhead
  · obtain ⟨x0, hx0, hc0, hpos, hbest⟩ := head_pick_sorted hsort hhead
    have hx0' := mem_atRung.1 hx0
    have hx0T : x0 ∈ T.rows := List.mem_of_mem_drop (List.mem_of_mem_take hx0'.1)
    have hrow0 : row = x0 := by
      rw [rows_get hI hp ho, ← hc0, (mem_rows hI hp ho x0).1 hx0T] at hrow
      exact (Option.some.inj hrow).symm
    subst hrow0
    obtain ⟨_, t0, ht0, hk0, _, hl0, hm0⟩ := observe_row hI hp ho ((mem_rows hI hp ho row).1 hx0T)
    have hkk : t0.key = k0 := by
      rw [hk0, hx0'.2, ← hcfg]
    have hxc : row.cfg ∈ ((T.rows.drop (sliceStart bs nb st.offset k)).take
        (bs (k % nb)).size).map (·.cfg) := List.mem_map.2 ⟨row, hx0'.1, rfl⟩
    rw [slice_cfgs (rows_label hI hp ho), List.mem_range'_1] at hxc
    have hnn : row.float ≠ .nan := by
      have := hnan row hx0
      rw [float_val (herr row hx0T)] at this
      intro he
      rw [he] at this
      simp [Perf.isNan, PyFloat.isNan] at this
    rw [float_val (herr row hx0T)] at hl0
    refine ⟨k, t0, ht0, hkk, ?_, by rw [hkey, hcfg], ?_, h1, h2, hq, by omega, row.float,
      (lossOf_of_val hl0 hnn).1, ?_⟩
    · intro hmem
      obtain ⟨t', ht', hk'⟩ := List.mem_map.1 hmem
      have := hm0 t' ht' (by rw [hk', hk0])
      rw [hk', hk0] at this
      simp at this
    · rw [InSlice, hkk, hcfg]; omega
    · intro t ht hr hin hup
      obtain ⟨x, hx, hxc', hlx⟩ := row_of_unpromoted hI hO hp ho ht hin hup
      rw [hr] at hx
      have hxT : x ∈ T.rows := List.mem_of_mem_drop (List.mem_of_mem_take (mem_atRung.1 hx).1)
      have hxn : x.float ≠ .nan := by
        have := hnan x hx
        rw [float_val (herr x hxT)] at this
        intro he
        rw [he] at this
        simp [Perf.isNan, PyFloat.isNan] at this
      rw [float_val (herr x hxT)] at hlx
      refine ⟨x.float, (lossOf_of_val hlx hxn).1, ?_⟩
      rcases hbest x hx with he | he
      · rw [← he]; exact le_refl_of_ne_nan hnn
      · rcases he with he | he
        · exact absurd he hxn
        · exact he.2
  · intro i hi
    have := sorts_lt hsort _ i hi
    simpa [floats] using this

end Neps.MF
