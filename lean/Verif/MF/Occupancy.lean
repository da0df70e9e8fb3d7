import Verif.MF.Promo
import Mathlib.Tactic.SplitIfs

/-! # How hyperband fills its brackets -/

namespace Neps.MF

variable {P F : Type}

theorem Good.cap_pos {b : Bracket F} (h : Good b) : ∀ r, b.minR ≤ r → r ≤ b.maxR → 0 < b.cap r := by
  have : ∀ d r, b.minR ≤ r → r + d = b.maxR → 0 < b.cap r := by
    intro d
    induction d with
    | zero => intro r _ hr; rw [show r = b.maxR by omega]; exact h.top
    | succ d ih =>
      intro r h1 h2
      rw [h.next r h1 (by omega)]
      exact Nat.mul_pos (by have := h.eta; omega) (ih (r + 1) (by omega) (by omega))
  intro r h1 h2
  exact this (b.maxR - r) r h1 (by omega)

theorem Good.size_pos {b : Bracket F} (h : Good b) : 0 < b.size := h.cap_pos _ (Nat.le_refl _) h.le

theorem Good.cap_div {b : Bracket F} (h : Good b) {r : Nat} (h1 : b.minR ≤ r) (h2 : r < b.maxR) :
    b.cap r / b.eta = b.cap (r + 1) := by
  rw [h.next r h1 h2, Nat.mul_div_cancel_left _ (by have := h.eta; omega)]

section slices

variable {bs : Nat → Bracket F} {nb off : Nat}

theorem sliceStart_lt (hg : ∀ i, i < nb → Good (bs i)) (hnb : 0 < nb) (k : Nat) :
    sliceStart bs nb off k < sliceStart bs nb off (k + 1) := by
  have := (hg (k % nb) (Nat.mod_lt _ hnb)).size_pos
  simp only [sliceStart]
  omega

theorem sliceStart_mono (hg : ∀ i, i < nb → Good (bs i)) (hnb : 0 < nb) {j k : Nat} (h : j ≤ k) :
    sliceStart bs nb off j ≤ sliceStart bs nb off k := by
  induction h with
  | refl => exact Nat.le_refl _
  | step _ ih =>
    rename_i m _
    have := sliceStart_lt (off := off) hg hnb m
    exact Nat.le_trans ih (Nat.le_of_lt this)

theorem slice_unique (hg : ∀ i, i < nb → Good (bs i)) (hnb : 0 < nb) {j k c : Nat}
    (h1 : sliceStart bs nb off j ≤ c) (h2 : c < sliceStart bs nb off (j + 1))
    (h3 : sliceStart bs nb off k ≤ c) (h4 : c < sliceStart bs nb off (k + 1)) : j = k := by
  rcases Nat.lt_trichotomy j k with h | h | h
  · have := sliceStart_mono (off := off) hg hnb (show j + 1 ≤ k by omega); omega
  · exact h
  · have := sliceStart_mono (off := off) hg hnb (show k + 1 ≤ j by omega); omega

theorem offset_le (hg : ∀ i, i < nb → Good (bs i)) (hnb : 0 < nb) (k : Nat) :
    off ≤ sliceStart bs nb off k :=
  sliceStart_mono (off := off) hg hnb (Nat.zero_le k)

/-- Skipping brackets moves along the slices. -/
theorem Skips.slices {rows : List (Row P F)} {cur cur' : Nat} {rest rest' : List (Row P F)}
    (h : Skips bs nb cur rest cur' rest') : ∀ k, cur = k % nb →
      rest = rows.drop (sliceStart bs nb off k) →
      ∃ k', cur' = k' % nb ∧ rest' = rows.drop (sliceStart bs nb off k') ∧
        (k' = k ∨ sliceStart bs nb off k' ≤ rows.length) := by
  induction h with
  | refl cur rest => intro k hc hr; exact ⟨k, hc, hr, Or.inl rfl⟩
  | step hpos hle _ ih =>
    intro k hc hr
    obtain ⟨k', h1, h2, h3⟩ := ih (k + 1) (by rw [hc]; simp) (by
      rw [hr, List.drop_drop, hc]; rfl)
    refine ⟨k', h1, h2, Or.inr ?_⟩
    rcases h3 with rfl | h3
    · simp only [sliceStart, Bracket.size]
      rw [hr, List.length_drop, hc] at hle
      rw [hc] at hpos
      omega
    · exact h3

end slices

/-- What holds of every bracket in every history of hyperband. -/
structure Occ (bs : Nat → Bracket F) (nb off : Nat) (H : List (Rec P F)) : Prop where
  range : ∀ k, ∀ t ∈ H, sliceStart bs nb off k ≤ t.key.cfg →
    t.key.cfg < sliceStart bs nb off (k + 1) →
    (bs (k % nb)).minR ≤ t.key.rung ∧ t.key.rung ≤ (bs (k % nb)).maxR
  below : ∀ k, ∀ t ∈ H, sliceStart bs nb off k ≤ t.key.cfg →
    t.key.cfg < sliceStart bs nb off (k + 1) →
    (bs (k % nb)).minR < t.key.rung → (⟨t.key.cfg, t.key.rung - 1⟩ : Key) ∈ H.map (·.key)
  quota : ∀ k r, (bs (k % nb)).minR ≤ r → r ≤ (bs (k % nb)).maxR →
    evaluatedAt H (sliceStart bs nb off k) (bs (k % nb)).size r ≤ (bs (k % nb)).cap r

/-- Trials of a configuration are at consecutive rungs. -/
theorem Occ.contiguous {bs : Nat → Bracket F} {nb off : Nat} {H : List (Rec P F)}
    (h : Occ bs nb off H) {k c : Nat} (h1 : sliceStart bs nb off k ≤ c)
    (h2 : c < sliceStart bs nb off (k + 1)) : ∀ d r, (bs (k % nb)).minR ≤ r →
      (⟨c, r + d⟩ : Key) ∈ H.map (·.key) → (⟨c, r⟩ : Key) ∈ H.map (·.key) := by
  intro d
  induction d with
  | zero => intro r _ hm; exact hm
  | succ d ih =>
    intro r hr hm
    apply ih r hr
    obtain ⟨t, ht, hk⟩ := List.mem_map.1 hm
    have := h.below k t ht (by rw [hk]; exact h1) (by rw [hk]; exact h2) (by rw [hk]; simp only; omega)
    rw [hk] at this
    exact this

/-- The rows of a slice of the table. -/
theorem slice_cfgs {rows : List (Row P F)}
    (h : ∀ (i : Nat) (x : Row P F), rows[i]? = some x → x.cfg = i) (start n : Nat) :
    ((rows.drop start).take n).map (·.cfg) = List.range' start (min n (rows.length - start)) := by
  apply List.ext_getElem?
  intro i
  rw [List.getElem?_map, List.getElem?_take]
  split
  · rw [List.getElem?_drop]
    by_cases hi : start + i < rows.length
    · rw [List.getElem?_range' (by omega), List.getElem?_eq_getElem hi]
      simp only [Option.map_some, Option.some.injEq, Nat.one_mul]
      exact h _ _ (List.getElem?_eq_getElem hi)
    · rw [List.getElem?_eq_none (by omega)]
      symm
      rw [Option.map_none]
      apply List.getElem?_eq_none
      simp; omega
  · symm
    rw [Option.map_none]
    apply List.getElem?_eq_none
    simp; omega

theorem dropDefault_slice {st : Settings} {rows : List (Row P F)}
    (h : ∀ (i : Nat) (x : Row P F), rows[i]? = some x → x.cfg = i) {start : Nat} (hs : st.offset ≤ start) (n : Nat) :
    dropDefault st ((rows.drop start).take n) = (rows.drop start).take n := by
  simp only [dropDefault]
  split
  · rename_i hf
    rw [List.filter_eq_self]
    intro x hx
    have hx' : x.cfg ∈ ((rows.drop start).take n).map (·.cfg) := List.mem_map.2 ⟨x, hx, rfl⟩
    rw [slice_cfgs h, List.mem_range'_1] at hx'
    have : st.offset = 1 := by
      simp only [Bool.and_eq_true] at hf
      simp [Settings.offset, hf.1, hf.2]
    simp
    omega
  · rfl

theorem bracketRows_eq (st : Settings) (rows : List (Row P F)) :
    bracketRows st rows = rows.drop st.offset := by
  simp only [bracketRows, Settings.offset]
  split <;> rfl

section counting

variable {st : Settings} {budget : Nat → F} {bs : Nat → Bracket F} {nb off : Nat}
  {H H' : List (Rec P F)} {T : Table P F}

/-- The rung of a row is the highest rung of its configuration. -/
theorem row_rung (hI : Inv budget H) (hO : Occ bs nb off H) (hp : H'.Perm H)
    (ho : observe st H' = .ok T) {x : Row P F} (hx : x ∈ T.rows) {k : Nat}
    (h1 : sliceStart bs nb off k ≤ x.cfg) (h2 : x.cfg < sliceStart bs nb off (k + 1)) :
    (bs (k % nb)).minR ≤ x.rung ∧ x.rung ≤ (bs (k % nb)).maxR ∧
      ∀ r, (bs (k % nb)).minR ≤ r → (r ≤ x.rung ↔ (⟨x.cfg, r⟩ : Key) ∈ H.map (·.key)) := by
  obtain ⟨_, t, ht, hk, _, _, hm⟩ := observe_row hI hp ho ((mem_rows hI hp ho x).1 hx)
  have hrange := hO.range k t ht (by rw [hk]; exact h1) (by rw [hk]; exact h2)
  rw [hk] at hrange
  refine ⟨hrange.1, hrange.2, fun r hr => ⟨fun hle => ?_, fun hmem => ?_⟩⟩
  · apply hO.contiguous h1 h2 (x.rung - r) r hr
    rw [show r + (x.rung - r) = x.rung by omega]
    exact List.mem_map.2 ⟨t, ht, hk⟩
  · obtain ⟨t', ht', hk'⟩ := List.mem_map.1 hmem
    have := hm t' ht' (by rw [hk'])
    rw [hk'] at this
    exact this

theorem rows_label (hI : Inv budget H) (hp : H'.Perm H) (ho : observe st H' = .ok T) :
    ∀ (i : Nat) (x : Row P F), T.rows[i]? = some x → x.cfg = i := by
  intro i x hx
  rw [rows_get hI hp ho] at hx
  exact (observe_row hI hp ho hx).1

/-- The number of rows of a slice that reached rung `r` is the number of its configurations that
have a trial at `r`. -/
theorem reached_slice (hI : Inv budget H) (hO : Occ bs nb off H) (hp : H'.Perm H)
    (ho : observe st H' = .ok T) (k : Nat) {r : Nat} (hr : (bs (k % nb)).minR ≤ r) :
    reached ((T.rows.drop (sliceStart bs nb off k)).take (bs (k % nb)).size) r (bs (k % nb)).maxR
      = evaluatedAt H (sliceStart bs nb off k) (bs (k % nb)).size r := by
  have hlab := rows_label hI hp ho
  have hcfgs := slice_cfgs hlab (sliceStart bs nb off k) (bs (k % nb)).size
  have h1 : reached ((T.rows.drop (sliceStart bs nb off k)).take (bs (k % nb)).size) r
        (bs (k % nb)).maxR
      = ((T.rows.drop (sliceStart bs nb off k)).take (bs (k % nb)).size).countP
        ((fun c => decide ((⟨c, r⟩ : Key) ∈ H.map (·.key))) ∘ (·.cfg)) := by
    apply List.countP_congr
    intro x hx
    have hxm : x.cfg ∈ ((T.rows.drop (sliceStart bs nb off k)).take (bs (k % nb)).size).map (·.cfg) :=
      List.mem_map.2 ⟨x, hx, rfl⟩
    rw [hcfgs, List.mem_range'_1] at hxm
    have hxr : x ∈ T.rows := List.mem_of_mem_drop (List.mem_of_mem_take hx)
    obtain ⟨_, h3, h4⟩ := row_rung hI hO hp ho hxr (k := k) hxm.1 (by
      simp only [sliceStart]; omega)
    simp only [Function.comp, decide_eq_true_eq, ← h4 r hr]
    constructor
    · exact fun h => h.1
    · exact fun h => ⟨h, h3⟩
  rw [h1, ← List.countP_map, hcfgs, evaluatedAt]
  by_cases hle : (bs (k % nb)).size ≤ T.rows.length - sliceStart bs nb off k
  · rw [Nat.min_eq_left hle]
  · rw [Nat.min_eq_right (by omega)]
    have hsplit : List.range' (sliceStart bs nb off k) (bs (k % nb)).size
        = List.range' (sliceStart bs nb off k) (T.rows.length - sliceStart bs nb off k) ++
          List.range' (sliceStart bs nb off k + (T.rows.length - sliceStart bs nb off k))
            ((bs (k % nb)).size - (T.rows.length - sliceStart bs nb off k)) := by
      have := List.range'_append (s := sliceStart bs nb off k)
        (m := T.rows.length - sliceStart bs nb off k)
        (n := (bs (k % nb)).size - (T.rows.length - sliceStart bs nb off k)) (step := 1)
      rw [Nat.one_mul] at this
      rw [this]
      congr 1
      omega
    rw [hsplit, List.countP_append]
    have hz : (List.range' (sliceStart bs nb off k + (T.rows.length - sliceStart bs nb off k))
            ((bs (k % nb)).size - (T.rows.length - sliceStart bs nb off k))).countP
          (fun c => decide ((⟨c, r⟩ : Key) ∈ H.map (·.key))) = 0 := by
      rw [List.countP_eq_zero]
      intro c hc
      rw [List.mem_range'_1] at hc
      simp only [decide_eq_true_eq]
      intro hmem
      obtain ⟨t, ht, hk⟩ := List.mem_map.1 hmem
      have := (observe_bound hI hp ho c).2 ⟨t, ht, by rw [hk]⟩
      rw [← rows_length hI hp ho] at this
      omega
    omega

theorem atRung_reached (rows : List (Row P F)) (r maxR : Nat) (h : r ≤ maxR) :
    (atRung rows r).length + reached rows (r + 1) maxR = reached rows r maxR := by
  simp only [atRung, reached]
  rw [← List.countP_eq_length_filter]
  induction rows with
  | nil => simp
  | cons x rows ih =>
    simp only [List.countP_cons]
    by_cases h1 : x.rung = r
    · rw [if_pos (by simpa using h1), if_neg (by simp; omega), if_pos (by simp; omega)]
      omega
    · by_cases h2 : r + 1 ≤ x.rung ∧ x.rung ≤ maxR
      · rw [if_neg (by simpa using h1), if_pos (by simpa using h2), if_pos (by simp; omega)]
        omega
      · rw [if_neg (by simpa using h1), if_neg (by simpa using h2), if_neg (by simp; omega)]
        omega

end counting

theorem evaluatedAt_snoc (H : List (Rec P F)) (t : Rec P F) (start n r : Nat) :
    evaluatedAt (H ++ [t]) start n r ≤ evaluatedAt H start n r +
      (if t.key.rung = r ∧ start ≤ t.key.cfg ∧ t.key.cfg < start + n then 1 else 0) := by
  simp only [evaluatedAt]
  have hnd : (List.range' start n).Nodup := List.nodup_range'
  have hmem : ∀ c, c ∈ List.range' start n → start ≤ c ∧ c < start + n := by
    intro c hc; simpa [List.mem_range'_1] using hc
  generalize List.range' start n = l at hnd hmem
  have key : l.countP (fun c => decide ((⟨c, r⟩ : Key) ∈ (H ++ [t]).map (·.key)))
      ≤ l.countP (fun c => decide ((⟨c, r⟩ : Key) ∈ H.map (·.key)))
        + l.countP (fun c => decide ((⟨c, r⟩ : Key) = t.key)) := by
    clear hnd hmem
    induction l with
    | nil => simp
    | cons c l ih =>
      simp only [List.countP_cons]
      have hone : (if decide ((⟨c, r⟩ : Key) ∈ (H ++ [t]).map (·.key)) = true then 1 else 0)
          ≤ (if decide ((⟨c, r⟩ : Key) ∈ H.map (·.key)) = true then 1 else 0)
            + (if decide ((⟨c, r⟩ : Key) = t.key) = true then 1 else 0) := by
        by_cases hA : (⟨c, r⟩ : Key) ∈ (H ++ [t]).map (·.key)
        · rw [if_pos (decide_eq_true hA)]
          rw [List.map_append, List.mem_append] at hA
          rcases hA with hA | hA
          · rw [if_pos (decide_eq_true hA)]; omega
          · simp only [List.map_cons, List.map_nil, List.mem_singleton] at hA
            rw [if_pos (decide_eq_true hA)]; omega
        · rw [if_neg (by rw [decide_eq_true_eq]; exact hA)]
          exact Nat.zero_le _
      omega
  refine Nat.le_trans key (Nat.add_le_add_left ?_ _)
  split
  · have : l.countP (fun c => decide ((⟨c, r⟩ : Key) = t.key)) ≤ l.count t.key.cfg := by
      rw [List.count]
      apply List.countP_mono_left
      intro c _ hc
      simp only [decide_eq_true_eq] at hc
      rw [← hc]; simp
    exact Nat.le_trans this (List.nodup_iff_count.1 hnd _)
  · rename_i hno
    rw [Nat.le_zero, List.countP_eq_zero]
    intro c hc
    simp only [decide_eq_true_eq]
    intro he
    apply hno
    have := hmem c hc
    rw [← he]
    exact ⟨rfl, this.1, this.2⟩

theorem lookup_mem {ps : List (Nat × List Nat)} {r : Nat} {l : List Nat} (h : ps.lookup r = some l) :
    (r, l) ∈ ps := by
  induction ps with
  | nil => simp at h
  | cons x ps ih =>
    obtain ⟨a, l'⟩ := x
    simp only [List.lookup] at h
    split at h
    · rename_i he
      simp only [Option.some.injEq] at h
      simp only [beq_iff_eq] at he
      subst he; subst h
      simp
    · exact List.mem_cons_of_mem _ (ih h)

theorem isPromotable_none {b : Bracket F} {sort : Argsort} {obj : Bool} {rows : List (Row P F)}
    {ps : List (Nat × List Nat)} (hs : syncPromotions b sort obj rows = .ok ps)
    (h : isPromotable b ps = none) : promotionCount ps = 0 := by
  have hz : ∀ r l, (r, l) ∈ ps → l = [] := by
    intro r l hm
    obtain ⟨h1, h2, _, _, _, _, hl⟩ := syncPromotions_mem hs hm
    simp only [isPromotable, List.find?_eq_none, List.mem_reverse, List.mem_range'_1] at h
    have := h r (by omega)
    simp only [Bool.not_eq_true, Bool.not_eq_false', List.isEmpty_iff, promosAt] at this
    cases hlk : ps.lookup r with
    | none =>
      have := List.lookup_eq_none_iff.1 hlk (r, l) hm
      simp at this
    | some l' =>
      rw [hlk] at this
      have hl' := (syncPromotions_mem hs (lookup_mem hlk)).2.2.2.2.2.2
      simp only [Option.getD_some] at this
      rw [hl, ← hl', this]
  simp only [promotionCount]
  apply List.sum_eq_zero
  intro n hn
  obtain ⟨⟨r, l⟩, hm, rfl⟩ := List.mem_map.1 hn
  simp [hz r l hm]

/-- The free places of the next rung are what the synchronous policy gives out. -/
theorem topK_eq {st : Settings} {budget : Nat → F} {bs : Nat → Bracket F} {nb off : Nat}
    {H H' : List (Rec P F)} {T : Table P F} (hI : Inv budget H) (hO : Occ bs nb off H)
    (hp : H'.Perm H) (ho : observe st H' = .ok T) (k : Nat) (hg : Good (bs (k % nb))) {r : Nat}
    (h1 : (bs (k % nb)).minR ≤ r) (h2 : r < (bs (k % nb)).maxR)
    (hfull : (bs (k % nb)).cap r ≤
      reached ((T.rows.drop (sliceStart bs nb off k)).take (bs (k % nb)).size) r (bs (k % nb)).maxR) :
    evaluatedAt H (sliceStart bs nb off k) (bs (k % nb)).size r = (bs (k % nb)).cap r ∧
    (((bs (k % nb)).cap r / (bs (k % nb)).eta : Nat) : Int) - (((bs (k % nb)).cap r : Int) -
      (atRung ((T.rows.drop (sliceStart bs nb off k)).take (bs (k % nb)).size) r).length)
      = ((bs (k % nb)).cap (r + 1) -
        evaluatedAt H (sliceStart bs nb off k) (bs (k % nb)).size (r + 1) : Nat) ∧
    evaluatedAt H (sliceStart bs nb off k) (bs (k % nb)).size (r + 1) ≤ (bs (k % nb)).cap (r + 1) := by
  have hq := hO.quota k r h1 (by omega)
  have hq' := hO.quota k (r + 1) (by omega) (by omega)
  have e1 := reached_slice hI hO hp ho k h1
  have e2 := reached_slice hI hO hp ho k (r := r + 1) (by omega)
  have e3 := atRung_reached ((T.rows.drop (sliceStart bs nb off k)).take (bs (k % nb)).size) r
    (bs (k % nb)).maxR (by omega)
  rw [hg.cap_div h1 h2]
  omega

/-- One ask of hyperband keeps the brackets in order. -/
theorem Occ.ask {st : Settings} {budget : Nat → F} {bs : Nat → Bracket F} {nb : Nat}
    {H H' : List (Rec P F)} {sort : Argsort} {new : P} {p : Proposal P F}
    (hg : ∀ i, i < nb → Good (bs i)) (hnb : 0 < nb)
    (hI : Inv budget H) (hO : Occ bs nb st.offset H) (hp : H'.Perm H)
    (h : hbAsk st bs nb sort H' new = .ok p) : Occ bs nb st.offset (H ++ [p.toRec]) := by
  simp only [hbAsk] at h
  cases ho : observe st H' with
  | error e => simp [ho] at h
  | ok T =>
    simp only [ho] at h
    cases hl : hbLoop st bs nb sort (hasError T.rows) 0 (bracketRows st T.rows) with
    | error e => simp [hl] at h
    | ok res =>
      obtain ⟨cur, ps⟩ := res
      simp only [hl] at h
      obtain ⟨rest', hsk, hs, hend⟩ := hbLoop_result _ _ _ rfl hl
      obtain ⟨k, hk, hrest, hstart⟩ := hsk.slices (rows := T.rows) (off := st.offset) 0 (by simp)
        (bracketRows_eq st T.rows)
      subst hk
      have hgk := hg (k % nb) (Nat.mod_lt _ hnb)
      have hoff : st.offset ≤ sliceStart bs nb st.offset k := offset_le hg hnb k
      have hlab := rows_label hI hp ho
      rw [hrest] at hs
      change syncPromotions _ _ _ (dropDefault st ((T.rows.drop _).take (bs (k % nb)).size)) = _ at hs
      rw [dropDefault_slice hlab hoff] at hs
      -- the new trial is in at most one slice; it satisfies the requirements there
      suffices hnew : ∀ j, sliceStart bs nb st.offset j ≤ p.key.cfg →
          p.key.cfg < sliceStart bs nb st.offset (j + 1) →
          (bs (j % nb)).minR ≤ p.key.rung ∧ p.key.rung ≤ (bs (j % nb)).maxR ∧
          ((bs (j % nb)).minR < p.key.rung →
            (⟨p.key.cfg, p.key.rung - 1⟩ : Key) ∈ H.map (·.key)) ∧
          ((bs (j % nb)).minR < p.key.rung →
            evaluatedAt H (sliceStart bs nb st.offset j) (bs (j % nb)).size p.key.rung
              < (bs (j % nb)).cap p.key.rung) by
        refine ⟨?_, ?_, ?_⟩
        · intro j t ht ha hb
          rcases List.mem_append.1 ht with h' | h'
          · exact hO.range j t h' ha hb
          · simp only [List.mem_singleton] at h'; subst h'
            have := hnew j ha hb
            exact ⟨this.1, this.2.1⟩
        · intro j t ht ha hb hm
          rw [List.map_append, List.mem_append]
          left
          rcases List.mem_append.1 ht with h' | h'
          · exact hO.below j t h' ha hb hm
          · simp only [List.mem_singleton] at h'; subst h'
            exact (hnew j ha hb).2.2.1 hm
        · intro j r h1 h2
          have hq := hO.quota j r h1 h2
          by_cases hmin : r = (bs (j % nb)).minR
          · subst hmin
            have := List.countP_le_length (p := fun c => decide ((⟨c, (bs (j % nb)).minR⟩ : Key) ∈
              (H ++ [p.toRec]).map (·.key))) (l := List.range' (sliceStart bs nb st.offset j)
                (bs (j % nb)).size)
            simp only [List.length_range'] at this
            exact this
          · have hs := evaluatedAt_snoc H p.toRec (sliceStart bs nb st.offset j) (bs (j % nb)).size r
            split at hs
            · rename_i hin
              simp only [Proposal.toRec] at hin
              have := (hnew j hin.2.1 (by simp only [sliceStart]; omega)).2.2.2 (by omega)
              rw [hin.1] at this
              omega
            · omega
      simp only [getConfigAndIds] at h
      cases hprom : isPromotable (bs (k % nb)) ps with
      | some r =>
        simp only [hprom] at h
        cases hh : (promosAt ps r).head? with
        | none => simp [hh] at h
        | some c =>
          simp only [hh] at h
          have hcm := List.mem_of_mem_head? hh
          obtain ⟨l, hlm, hcl⟩ := promosAt_mem hcm
          obtain ⟨h1, h2, hfull, hnan, hne, hobj, hlsel⟩ := syncPromotions_mem hs hlm
          have hcl' := hcl
          rw [hlsel] at hcl
          simp only [syncSel] at hcl
          obtain ⟨x, hx, rfl⟩ := List.mem_map.1 hcl
          have hxr := mem_atRung.1 (mem_pick hx)
          have hxT : x ∈ T.rows := List.mem_of_mem_drop (List.mem_of_mem_take hxr.1)
          have hxc : x.cfg ∈ ((T.rows.drop (sliceStart bs nb st.offset k)).take
              (bs (k % nb)).size).map (·.cfg) := List.mem_map.2 ⟨x, hxr.1, rfl⟩
          rw [slice_cfgs hlab, List.mem_range'_1] at hxc
          rw [rows_get hI hp ho, (mem_rows hI hp ho x).1 hxT] at h
          simp only [Except.ok.injEq] at h
          subst h
          intro j ha hb
          simp only at ha hb
          have hjk : j = k := slice_unique hg hnb ha hb hxc.1 (by simp only [sliceStart]; omega)
          subst hjk
          obtain ⟨hq, hk2, hq'⟩ := topK_eq hI hO hp ho j hgk h1 h2 hfull
          refine ⟨by simp only; omega, by simp only; omega, ?_, ?_⟩
          · intro _
            simp only [Nat.add_sub_cancel]
            have := (row_rung hI hO hp ho hxT ha hb).2.2 r h1
            rw [hxr.2] at this
            exact this.1 (Nat.le_refl _)
          · intro _
            simp only
            by_contra hge
            have hzero : ((bs (j % nb)).cap (r + 1) -
              evaluatedAt H (sliceStart bs nb st.offset j) (bs (j % nb)).size (r + 1) : Nat) = 0 := by
              omega
            rw [hk2, hzero] at hx
            simp [pyTake, pick] at hx
      | none =>
        simp only [hprom, Except.ok.injEq] at h
        have hcount := isPromotable_none hs hprom
        have hlast : rest'.length < (bs (k % nb)).size := by
          have hsz := hgk.size_pos
          simp only [Bracket.size] at hsz ⊢
          rcases hend with ⟨h', _⟩ | h'
          · exact absurd hcount h'
          · omega
        rw [hrest, List.length_drop] at hlast
        have hlen := rows_length hI hp ho
        have hid := newId_eq hI hp ho
        intro j ha hb
        have hpc : p.key.cfg = T.rows.length := by
          rw [← h]; simp only [hid, hlen]
        have hoffj : st.offset ≤ sliceStart bs nb st.offset j := offset_le hg hnb j
        have hstartk : sliceStart bs nb st.offset k ≤ T.rows.length := by
          rcases hstart with rfl | h'
          · simp only [sliceStart]; omega
          · exact h'
        have hjk : j = k := slice_unique hg hnb ha hb (by rw [hpc]; exact hstartk)
          (by rw [hpc]; simp only [sliceStart]; omega)
        subst hjk
        have hrung : p.key.rung = (bs (j % nb)).minR := by
          rw [← h]
          simp only
          rw [if_neg]
          intro hc
          simp only [Bool.and_eq_true, List.isEmpty_iff] at hc
          have hoff1 : st.offset = 1 := by
            simp [Settings.offset, hc.2, hc.1.1.2]
          rw [hc.1.2] at hpc
          simp only [List.length_nil] at hpc
          omega
        refine ⟨by omega, ?_, by omega, by omega⟩
        rw [hrung]; exact hgk.le

theorem Occ.nil {bs : Nat → Bracket F} {nb off : Nat} : Occ bs nb off ([] : List (Rec P F)) := by
  refine ⟨by simp, by simp, ?_⟩
  intro k r _ _
  simp [evaluatedAt]

theorem Occ.report {bs : Nat → Bracket F} {nb off : Nat} {H : List (Rec P F)}
    (h : Occ bs nb off H) (k : Key) (res : Res) : Occ bs nb off (report k res H) := by
  refine ⟨?_, ?_, ?_⟩
  · intro j t ht ha hb
    obtain ⟨t0, ht0, hk, _⟩ := mem_report ht
    rw [hk] at ha hb ⊢
    exact h.range j t0 ht0 ha hb
  · intro j t ht ha hb hm
    obtain ⟨t0, ht0, hk, _⟩ := mem_report ht
    rw [report_keys]
    rw [hk] at ha hb hm ⊢
    exact h.below j t0 ht0 ha hb hm
  · intro j r h1 h2
    simp only [evaluatedAt, report_keys]
    exact h.quota j r h1 h2

theorem Reach.occ {st : Settings} {bs : Nat → Bracket F} {nb : Nat} {budget : Nat → F}
    (hbud : ∀ i, i < nb → Agrees (bs i) budget)
    (hg : ∀ i, i < nb → Good (bs i)) (hnb : 0 < nb) {H : List (Rec P F)}
    (h : Reach (IsHB st bs nb) H) : Occ bs nb st.offset H := by
  induction h with
  | start => exact Occ.nil
  | ask hr hf hp hask ih =>
    obtain ⟨sort, _, rfl⟩ := hf
    exact Occ.ask hg hnb (hr.inv (.hb st bs nb hbud hnb)) ih hp hask
  | report k res _ _ ih => exact ih.report k res

end Neps.MF
