import Verif.Ifbo.DownloadModel

/-!
# C161: the surrogate model of ifBO is complete when it is used
-/

namespace Verif.Ifbo.Download

/-! ## Specification -/

/-- The file is there with all its pieces. -/
def Complete (n : ℕ) (s : Sys) : Prop := ∃ p, s.pt = some p ∧ ∀ k < n, k ∈ p

/-- The process is between the test whether the model is there and the end. -/
def Active : Pc → Prop
  | .fetch => True
  | .write _ => True
  | .extract _ => True
  | _ => False

/-- Orderly executions: a process starts only while no other one is downloading, no process is killed while
it extracts the archive, nor while it writes the archive next to the file of another version. -/
inductive Orderly (n : ℕ) (other : Bool) : Sys → Prop
  | fresh : Orderly n other (fresh other)
  | step {s : Sys} (w : ℕ) (ok : Bool) : Orderly n other s →
    (s.pc w = .idle → ∀ v, ¬ Active (s.pc v)) → Orderly n other (next n s (.step w ok))
  | kill {s : Sys} (w : ℕ) : Orderly n other s → (∀ j, s.pc w ≠ .extract j) →
    (other = true → ∀ i, s.pc w ≠ .write i) → Orderly n other (next n s (.kill w))

/-! ## Invariant -/

structure Inv (n : ℕ) (s : Sys) : Prop where
  one : ∀ w v, Active (s.pc w) → Active (s.pc v) → w = v
  done : ∀ w, s.pc w = .done → Complete n s ∧ s.zip.isSome ∧ ∀ v, ¬ Active (s.pc v)
  quiet : (∀ w, ¬ Active (s.pc w)) → (s.pt.isSome → s.zip.isSome ∧ Complete n s) ∧
    (s.zip.isSome → s.other = true → Complete n s)
  fetch : ∀ w, s.pc w = .fetch → s.pt = none ∧ (s.zip.isSome → s.other = false)
  write : ∀ w i, s.pc w = .write i → s.pt = none ∧ ∃ z, s.zip = some z ∧ ∀ k < i, k ∈ z
  extract : ∀ w j, s.pc w = .extract j →
    ∃ z p, s.zip = some z ∧ (∀ k < n, k ∈ z) ∧ s.pt = some p ∧ ∀ k < j, k ∈ p

theorem upd_self (pc : ℕ → Pc) (w : ℕ) (p : Pc) : upd pc w p w = p := by simp [upd]

theorem upd_ne (pc : ℕ → Pc) {w v : ℕ} (p : Pc) (h : v ≠ w) : upd pc w p v = pc v := by simp [upd, h]

theorem inv_fresh (n : ℕ) (other : Bool) : Inv n (fresh other) where
  one w v h := by simp [fresh, Active] at h
  done w h := by simp [fresh] at h
  quiet _ := by simp [fresh]
  fetch w h := by simp [fresh] at h
  write w i h := by simp [fresh] at h
  extract w j h := by simp [fresh] at h

/-- The active process stops, or a process that is not active goes to a place that is not active. -/
theorem inv_stop {n : ℕ} {s : Sys} (hi : Inv n s) (w : ℕ) (p : Pc) (hp : ¬ Active p)
    (hd : p = .done → Complete n s ∧ s.zip.isSome ∧ ∀ v, v ≠ w → ¬ Active (s.pc v))
    (hq : Active (s.pc w) → (s.pt.isSome → s.zip.isSome ∧ Complete n s) ∧
      (s.zip.isSome → s.other = true → Complete n s)) : Inv n { s with pc := upd s.pc w p } where
  one a b ha hb := by
    have h1 : a ≠ w := by rintro rfl; simp only [upd_self] at ha; exact hp ha
    have h2 : b ≠ w := by rintro rfl; simp only [upd_self] at hb; exact hp hb
    simp only [upd_ne _ _ h1] at ha
    simp only [upd_ne _ _ h2] at hb
    exact hi.one a b ha hb
  done a ha := by
    have hact : ∀ v, (∀ u, u ≠ w → ¬ Active (s.pc u)) → ¬ Active (upd s.pc w p v) := by
      intro v hv
      by_cases h : v = w
      · subst h; rw [upd_self]; exact hp
      · rw [upd_ne _ _ h]; exact hv v h
    by_cases h : a = w
    · subst h
      simp only [upd_self] at ha
      obtain ⟨h1, h2, h3⟩ := hd ha
      exact ⟨h1, h2, fun v => hact v h3⟩
    · simp only [upd_ne _ _ h] at ha
      obtain ⟨h1, h2, h3⟩ := hi.done a ha
      exact ⟨h1, h2, fun v => hact v fun u _ => h3 u⟩
  quiet hall := by
    by_cases hw : Active (s.pc w)
    · exact hq hw
    · refine hi.quiet fun v => ?_
      by_cases h : v = w
      · subst h; exact hw
      · have := hall v
        simpa only [upd_ne _ _ h] using this
  fetch a ha := by
    by_cases h : a = w
    · subst h; simp only [upd_self] at ha; subst ha; exact absurd trivial hp
    · simp only [upd_ne _ _ h] at ha; exact hi.fetch a ha
  write a i ha := by
    by_cases h : a = w
    · subst h; simp only [upd_self] at ha; subst ha; exact absurd trivial hp
    · simp only [upd_ne _ _ h] at ha; exact hi.write a i ha
  extract a j ha := by
    by_cases h : a = w
    · subst h; simp only [upd_self] at ha; subst ha; exact absurd trivial hp
    · simp only [upd_ne _ _ h] at ha; exact hi.extract a j ha

/-- One process is active after a step and no other was before. -/
theorem inv_active {n : ℕ} {s t : Sys} (w : ℕ) (p : Pc) (hpc : t.pc = upd s.pc w p)
    (hp : Active p) (hno : ∀ v, v ≠ w → ¬ Active (s.pc v)) (hnd : ∀ v, s.pc v ≠ .done)
    (hf : p = .fetch → t.pt = none ∧ (t.zip.isSome → t.other = false))
    (hw : ∀ i, p = .write i → t.pt = none ∧ ∃ z, t.zip = some z ∧ ∀ k < i, k ∈ z)
    (he : ∀ j, p = .extract j →
      ∃ z q, t.zip = some z ∧ (∀ k < n, k ∈ z) ∧ t.pt = some q ∧ ∀ k < j, k ∈ q) : Inv n t := by
  have key : ∀ a, Active (t.pc a) → a = w := by
    intro a ha
    by_contra h
    rw [hpc, upd_ne _ _ h] at ha
    exact hno a h ha
  have hpw : t.pc w = p := by rw [hpc, upd_self]
  refine ⟨fun a b ha hb => (key a ha).trans (key b hb).symm, fun a ha => ?_, fun hall => ?_,
    fun a ha => ?_, fun a i ha => ?_, fun a j ha => ?_⟩
  · exfalso
    by_cases h : a = w
    · subst h; rw [hpw] at ha; subst ha; exact hp
    · rw [hpc, upd_ne _ _ h] at ha; exact hnd a ha
  · exact absurd (by rw [hpw]; exact hp) (hall w)
  · have := key a (by rw [ha]; trivial)
    subst this
    exact hf (hpw.symm.trans ha)
  · have := key a (by rw [ha]; trivial)
    subst this
    exact hw i (hpw.symm.trans ha)
  · have := key a (by rw [ha]; trivial)
    subst this
    exact he j (hpw.symm.trans ha)

theorem inv_next {n : ℕ} {s : Sys} (hi : Inv n s) (w : ℕ) (ok : Bool)
    (hs : s.pc w = .idle → ∀ v, ¬ Active (s.pc v)) : Inv n (next n s (.step w ok)) := by
  have hother : Active (s.pc w) → ∀ v, v ≠ w → ¬ Active (s.pc v) :=
    fun h v hv ha => hv (hi.one v w ha h)
  have hnd : Active (s.pc w) → ∀ v, s.pc v ≠ .done := fun h v hv => (hi.done v hv).2.2 w h
  cases hpc : s.pc w with
  | idle =>
    have hall := hs hpc
    have hq := hi.quiet hall
    simp only [next, hpc]
    cases hf : found s with
    | true =>
      simp only [if_true]
      refine inv_stop hi w .done (fun h => h) (fun _ => ?_) (fun h => absurd h (hall w))
      simp only [found, Bool.and_eq_true, Bool.or_eq_true] at hf
      refine ⟨?_, hf.1, fun v _ => hall v⟩
      rcases hf.2 with h | h
      · exact (hq.1 h).2
      · exact hq.2 hf.1 h
    | false =>
      simp only [Bool.false_eq_true, if_false]
      have hpt : s.pt = none ∧ (s.zip.isSome → s.other = false) := by
        simp only [found, Bool.and_eq_false_iff, Bool.or_eq_false_iff] at hf
        rcases hf with h | ⟨h1, h2⟩
        · refine ⟨?_, fun h' => by rw [h] at h'; simp at h'⟩
          cases hp : s.pt with
          | none => rfl
          | some p =>
            have := (hq.1 (by rw [hp]; rfl)).1
            rw [h] at this
            simp at this
        · exact ⟨by simpa using h1, fun _ => h2⟩
      refine inv_active w .fetch rfl trivial (fun v _ => hall v) (fun v hv => ?_) (fun _ => hpt)
        (fun i h => by simp at h) (fun j h => by simp at h)
      obtain ⟨⟨p, hp, _⟩, _⟩ := hi.done v hv
      rw [hpt.1] at hp
      simp at hp
  | fetch =>
    have hact : Active (s.pc w) := by rw [hpc]; trivial
    simp only [next, hpc]
    cases ok with
    | true =>
      simp only [if_true]
      exact inv_active w (.write 0) rfl trivial (hother hact) (hnd hact) (fun h => by simp at h)
        (fun i h => ⟨(hi.fetch w hpc).1, [], rfl, fun k hk => by
          simp only [Pc.write.injEq] at h
          omega⟩) (fun j h => by simp at h)
    | false =>
      simp only [Bool.false_eq_true, if_false]
      refine inv_stop hi w .failed (fun h => h) (fun h => by simp at h) fun _ => ?_
      obtain ⟨h1, h2⟩ := hi.fetch w hpc
      refine ⟨fun h => by rw [h1] at h; simp at h, fun h h' => ?_⟩
      rw [h2 h] at h'
      simp at h'
  | write i =>
    have hact : Active (s.pc w) := by rw [hpc]; trivial
    obtain ⟨hpt, z, hz, hk⟩ := hi.write w i hpc
    simp only [next, hpc]
    by_cases h : i < n
    · simp only [if_pos h]
      refine inv_active w (.write (i + 1)) rfl trivial (hother hact) (hnd hact)
        (fun h => by simp at h) (fun i' h' => ⟨hpt, i :: z, by simp [hz], fun k hk' => ?_⟩)
        (fun j h => by simp at h)
      simp only [Pc.write.injEq] at h'
      rcases Nat.lt_or_ge k i with hlt | hge
      · exact List.mem_cons_of_mem _ (hk k hlt)
      · have : k = i := by omega
        subst this
        exact List.mem_cons_self
    · simp only [if_neg h]
      have h0 : 0 ∈ s.zip.getD [] ∨ n = 0 := by
        rcases Nat.eq_zero_or_pos n with h0 | h0
        · exact Or.inr h0
        · left
          rw [hz]
          exact hk 0 (by omega)
      simp only [if_pos h0]
      refine inv_active w (.extract 0) rfl trivial (hother hact) (hnd hact) (fun h => by simp at h)
        (fun i h => by simp at h) (fun j h' => ⟨z, [], hz, fun k hk' => hk k (by omega), rfl, fun k hk' => ?_⟩)
      simp only [Pc.extract.injEq] at h'
      omega
  | extract j =>
    have hact : Active (s.pc w) := by rw [hpc]; trivial
    obtain ⟨z, p, hz, hzk, hp, hpk⟩ := hi.extract w j hpc
    simp only [next, hpc]
    by_cases h : j < n
    · simp only [if_pos h]
      have h0 : j ∈ s.zip.getD [] := by rw [hz]; exact hzk j h
      simp only [if_pos h0]
      refine inv_active w (.extract (j + 1)) rfl trivial (hother hact) (hnd hact)
        (fun h => by simp at h) (fun i h => by simp at h)
        (fun j' h' => ⟨z, j :: p, hz, hzk, by simp [hp], fun k hk' => ?_⟩)
      simp only [Pc.extract.injEq] at h'
      rcases Nat.lt_or_ge k j with hlt | hge
      · exact List.mem_cons_of_mem _ (hpk k hlt)
      · have : k = j := by omega
        subst this
        exact List.mem_cons_self
    · simp only [if_neg h]
      have hc : Complete n s := ⟨p, hp, fun k hk => hpk k (by omega)⟩
      exact inv_stop hi w .done (fun h => h) (fun _ => ⟨hc, by rw [hz]; rfl, hother hact⟩)
        fun _ => ⟨fun _ => ⟨by rw [hz]; rfl, hc⟩, fun _ _ => hc⟩
  | done => simpa only [next, hpc] using hi
  | failed => simpa only [next, hpc] using hi
  | dead => simpa only [next, hpc] using hi

theorem next_other (n : ℕ) (s : Sys) (e : Ev) : (next n s e).other = s.other := by
  cases e with
  | kill w => cases h : s.pc w <;> simp only [next, h]
  | step w ok =>
    cases h : s.pc w <;> simp only [next, h] <;> repeat' split
    all_goals rfl

theorem orderly_other {n : ℕ} {other : Bool} {s : Sys} (h : Orderly n other s) : s.other = other := by
  induction h with
  | fresh => rfl
  | step w ok _ _ ih => rw [next_other, ih]
  | kill w _ _ _ ih => rw [next_other, ih]

theorem orderly_inv {n : ℕ} {other : Bool} {s : Sys} (h : Orderly n other s) : Inv n s := by
  induction h with
  | fresh => exact inv_fresh n other
  | step w ok _ hs ih => exact inv_next ih w ok hs
  | @kill s w ho he hw ih =>
    cases hpc : s.pc w with
    | done => simpa only [next, hpc] using ih
    | failed => simpa only [next, hpc] using ih
    | idle =>
      simp only [next, hpc]
      exact inv_stop ih w .dead (fun h => h) (fun h => by simp at h)
        (fun h => by rw [hpc] at h; exact h.elim)
    | dead =>
      simp only [next, hpc]
      exact inv_stop ih w .dead (fun h => h) (fun h => by simp at h)
        (fun h => by rw [hpc] at h; exact h.elim)
    | extract j => exact absurd hpc (he j)
    | fetch =>
      simp only [next, hpc]
      refine inv_stop ih w .dead (fun h => h) (fun h => by simp at h) fun _ => ?_
      obtain ⟨h1, h2⟩ := ih.fetch w hpc
      refine ⟨fun h => by rw [h1] at h; simp at h, fun h h' => ?_⟩
      rw [h2 h] at h'
      simp at h'
    | write i =>
      simp only [next, hpc]
      refine inv_stop ih w .dead (fun h => h) (fun h => by simp at h) fun _ => ?_
      obtain ⟨h1, _⟩ := ih.write w i hpc
      refine ⟨fun h => by rw [h1] at h; simp at h, fun _ h' => ?_⟩
      rw [orderly_other ho] at h'
      exact absurd hpc (hw h' i)

/-! ## The property -/

/-- C161, proved for orderly executions: when a process has got the path of the model, the model is there
with all its pieces. -/
theorem C161_complete_partial (n : ℕ) (other : Bool) (s : Sys) (h : Orderly n other s) (w : ℕ)
    (hd : s.pc w = .done) : Complete n s :=
  ((orderly_inv h).done w hd).1

/-- C161: in orderly executions only the server can make a call fail: a process that has started to write
the archive is not stopped by an exception. -/
theorem C161_raises_partial (n : ℕ) (other : Bool) (s : Sys) (h : Orderly n other s) (w : ℕ) (ok : Bool)
    (hf : (next n s (.step w ok)).pc w = .failed) : s.pc w = .failed ∨ (s.pc w = .fetch ∧ ok = false) := by
  have hi := orderly_inv h
  cases hpc : s.pc w with
  | idle => cases hfo : found s <;> simp [next, hpc, hfo, upd_self] at hf
  | fetch => cases ok <;> simp [next, hpc, upd_self] at hf ⊢
  | write i =>
    obtain ⟨_, z, hz, hk⟩ := hi.write w i hpc
    by_cases hin : i < n
    · simp [next, hpc, hin, upd_self] at hf
    · have h0 : 0 ∈ s.zip.getD [] ∨ n = 0 := by
        rcases Nat.eq_zero_or_pos n with h0 | h0
        · exact Or.inr h0
        · left
          rw [hz]
          exact hk 0 (by omega)
      simp only [next, hpc, if_neg hin, if_pos h0, upd_self] at hf
      simp at hf
  | extract j =>
    obtain ⟨z, p, hz, hzk, _, _⟩ := hi.extract w j hpc
    by_cases hin : j < n
    · have h0 : j ∈ s.zip.getD [] := by rw [hz]; exact hzk j hin
      simp only [next, hpc, if_pos hin, if_pos h0, upd_self] at hf
      simp at hf
    · simp [next, hpc, hin, upd_self] at hf
  | done => simp [next, hpc] at hf
  | failed => exact Or.inl rfl
  | dead => simp [next, hpc] at hf

theorem run_cons (n : ℕ) (s : Sys) (e : Ev) (es : List Ev) : run n s (e :: es) = run n (next n s e) es := rfl

theorem next_fetch {n w : ℕ} {s : Sys} (h : s.pc w = .fetch) :
    (next n s (.step w true)).pc w = .write 0 := by
  simp only [next, h, if_true, upd_self]

theorem run_extract {n w : ℕ} : ∀ (m j : ℕ) (s : Sys), j + m = n → Inv n s → s.pc w = .extract j →
    ∃ k, (run n s (List.replicate k (.step w true))).pc w = .done ∧
      Inv n (run n s (List.replicate k (.step w true)))
  | 0, j, s, hm, hi, hpc => by
    refine ⟨1, ?_, ?_⟩
    · simp only [List.replicate_one, run_cons, next, hpc, if_neg (show ¬ j < n by omega)]
      exact upd_self _ _ _
    · exact inv_next hi w true fun h => by rw [hpc] at h; simp at h
  | m + 1, j, s, hm, hi, hpc => by
    obtain ⟨z, p, hz, hzk, _, _⟩ := hi.extract w j hpc
    have h : j < n := by omega
    have h0 : j ∈ s.zip.getD [] := by rw [hz]; exact hzk j h
    obtain ⟨k, hk⟩ := run_extract (w := w) m (j + 1) (next n s (.step w true)) (by omega)
      (inv_next hi w true fun h => by rw [hpc] at h; simp at h)
      (by simp only [next, hpc, if_pos h, if_pos h0, upd_self])
    exact ⟨k + 1, by rw [List.replicate_succ, run_cons]; exact hk⟩

theorem run_write {n w : ℕ} : ∀ (m i : ℕ) (s : Sys), i + m = n → Inv n s → s.pc w = .write i →
    ∃ k, (run n s (List.replicate k (.step w true))).pc w = .done ∧
      Inv n (run n s (List.replicate k (.step w true)))
  | 0, i, s, hm, hi, hpc => by
    obtain ⟨_, z, hz, hzk⟩ := hi.write w i hpc
    have h0 : 0 ∈ s.zip.getD [] ∨ n = 0 := by
      rcases Nat.eq_zero_or_pos n with h0 | h0
      · exact Or.inr h0
      · left
        rw [hz]
        exact hzk 0 (by omega)
    obtain ⟨k, hk⟩ := run_extract (w := w) n 0 (next n s (.step w true)) (by omega)
      (inv_next hi w true fun h => by rw [hpc] at h; simp at h)
      (by simp only [next, hpc, if_neg (show ¬ i < n by omega), if_pos h0, upd_self])
    exact ⟨k + 1, by rw [List.replicate_succ, run_cons]; exact hk⟩
  | m + 1, i, s, hm, hi, hpc => by
    have h : i < n := by omega
    obtain ⟨k, hk⟩ := run_write (w := w) m (i + 1) (next n s (.step w true)) (by omega)
      (inv_next hi w true fun h => by rw [hpc] at h; simp at h)
      (by simp only [next, hpc, if_pos h, upd_self])
    exact ⟨k + 1, by rw [List.replicate_succ, run_cons]; exact hk⟩

/-- C161, proved after every orderly execution: a process that starts while no other one is downloading, and
whose server answers, gets the complete model, also after other processes were killed or failed. -/
theorem C161_alone_partial (n : ℕ) (other : Bool) (s : Sys) (h : Orderly n other s) (w : ℕ)
    (hw : s.pc w = .idle) (hq : ∀ v, ¬ Active (s.pc v)) :
    ∃ k, (run n s (List.replicate k (.step w true))).pc w = .done ∧
      Complete n (run n s (List.replicate k (.step w true))) := by
  have hi := orderly_inv h
  have hi1 := inv_next hi w true fun _ => hq
  suffices hs : ∃ k, (run n s (List.replicate k (.step w true))).pc w = .done ∧
      Inv n (run n s (List.replicate k (.step w true))) by
    obtain ⟨k, h1, h2⟩ := hs
    exact ⟨k, h1, (h2.done w h1).1⟩
  cases hf : found s with
  | true =>
    refine ⟨1, ?_, hi1⟩
    simp only [List.replicate_one, run_cons, next, hw, hf, if_true]
    exact upd_self _ _ _
  | false =>
    have hpc1 : (next n s (.step w true)).pc w = .fetch := by
      simp only [next, hw, hf, Bool.false_eq_true, if_false, upd_self]
    have hi2 := inv_next hi1 w true fun h => by rw [hpc1] at h; simp at h
    obtain ⟨k, hk⟩ := run_write (w := w) n 0 (next n (next n s (.step w true)) (.step w true)) (by omega) hi2
      (next_fetch hpc1)
    exact ⟨k + 1 + 1, by rw [List.replicate_succ, run_cons, List.replicate_succ, run_cons]; exact hk⟩

/-! ## Where it fails -/

/-- C161 fails when a process is killed while it extracts the archive, for every size and every piece at
which this happens: from then on every call returns at once, and the model is never completed. Stated for
every state without a process at work in which archive and file are there: whatever happens, the file
stays as it is. -/
theorem C161_never_repaired_fails (n : ℕ) (s : Sys) (hz : s.zip.isSome) (hp : s.pt.isSome)
    (hq : ∀ v, ¬ Active (s.pc v)) (es : List Ev) :
    (run n s es).pt = s.pt ∧ (run n s es).zip = s.zip ∧ ∀ v, ¬ Active ((run n s es).pc v) := by
  induction es generalizing s with
  | nil => exact ⟨rfl, rfl, hq⟩
  | cons e es ih =>
    have key : (next n s e).pt = s.pt ∧ (next n s e).zip = s.zip ∧ ∀ v, ¬ Active ((next n s e).pc v) := by
      have hupd : ∀ (w : ℕ) (p : Pc), ¬ Active p → ∀ v, ¬ Active (upd s.pc w p v) := by
        intro w p hpa v
        by_cases h : v = w
        · subst h; rw [upd_self]; exact hpa
        · rw [upd_ne _ _ h]; exact hq v
      have hfound : found s = true := by simp [found, hz, hp]
      cases e with
      | kill w =>
        cases hpc : s.pc w <;> simp only [next, hpc] <;>
          first
          | exact ⟨trivial, trivial, hq⟩
          | exact ⟨trivial, trivial, hupd w .dead fun h => h⟩
      | step w ok =>
        cases hpc : s.pc w with
        | idle =>
          simp only [next, hpc, hfound, if_true]
          exact ⟨trivial, trivial, hupd w .done fun h => h⟩
        | fetch => exact absurd (by rw [hpc]; trivial) (hq w)
        | write i => exact absurd (by rw [hpc]; trivial) (hq w)
        | extract j => exact absurd (by rw [hpc]; trivial) (hq w)
        | done => simp only [next, hpc]; exact ⟨trivial, trivial, hq⟩
        | failed => simp only [next, hpc]; exact ⟨trivial, trivial, hq⟩
        | dead => simp only [next, hpc]; exact ⟨trivial, trivial, hq⟩
    obtain ⟨h1, h2, h3⟩ := key
    have := ih (next n s e) (by rw [h2]; exact hz) (by rw [h1]; exact hp) h3
    simp only [run, List.foldl_cons] at this ⊢
    exact ⟨this.1.trans h1, this.2.1.trans h2, this.2.2⟩

/-- The steps of a process up to the point at which it has extracted the first piece of three. -/
def half (w : ℕ) : List Ev := List.replicate 7 (.step w true)

/-- C161 fails after a kill: the process is killed in the middle of the extraction, and the next one gets a
model with one of three pieces. -/
theorem C161_kill_fails : (run 3 (fresh false) (half 0 ++ [.kill 0, .step 1 true])).pc 1 = .done ∧
    (run 3 (fresh false) (half 0 ++ [.kill 0, .step 1 true])).pt = some [0] := by
  decide +kernel

/-- C161 fails for two processes that start together: the second one gets the model while the first one is
still extracting it. -/
theorem C161_race_fails : (run 3 (fresh false) (half 0 ++ [.step 1 true])).pc 1 = .done ∧
    (run 3 (fresh false) (half 0 ++ [.step 1 true])).pc 0 = .extract 1 ∧
    (run 3 (fresh false) (half 0 ++ [.step 1 true])).pt = some [0] := by
  decide +kernel

/-- C161 fails for two processes that download at the same time: the second one empties the archive the
first one reads, whose call raises an exception. -/
theorem C161_both_fails : (run 3 (fresh false)
    ([.step 1 true] ++ half 0 ++ [.step 1 true, .step 0 true])).pc 0 = .failed := by
  decide +kernel

/-- C161 fails next to the model of another version: after a kill while the archive is written, the next
process gets the directory without any file of this version. -/
theorem C161_version_fails : (run 3 (fresh true)
    [.step 0 true, .step 0 true, .kill 0, .step 1 true]).pc 1 = .done ∧
    (run 3 (fresh true) [.step 0 true, .step 0 true, .kill 0, .step 1 true]).pt = none := by
  decide +kernel

/-! ## Non-vacuity -/

theorem not_active_of {s : Sys} (h : ∀ v, s.pc v = .idle ∨ s.pc v = .done ∨ s.pc v = .dead) :
    ∀ v, ¬ Active (s.pc v) := by
  intro v hv
  rcases h v with h | h | h <;> rw [h] at hv <;> exact hv

/-- A complete download of two pieces by process 0. -/
example : ∃ s, Orderly 2 false s ∧ s.pc 0 = .done ∧ s.pt = some [1, 0] := by
  refine ⟨run 2 (fresh false) (List.replicate 8 (.step 0 true)), ?_, by decide +kernel, by decide +kernel⟩
  have h0 : Orderly 2 false (fresh false) := .fresh
  have h1 := h0.step 0 true fun _ v => by simp [fresh, Active]
  have h2 := h1.step 0 true fun h => absurd h (by decide +kernel)
  have h3 := h2.step 0 true fun h => absurd h (by decide +kernel)
  have h4 := h3.step 0 true fun h => absurd h (by decide +kernel)
  have h5 := h4.step 0 true fun h => absurd h (by decide +kernel)
  have h6 := h5.step 0 true fun h => absurd h (by decide +kernel)
  have h7 := h6.step 0 true fun h => absurd h (by decide +kernel)
  exact h7.step 0 true fun h => absurd h (by decide +kernel)

/-- The hypotheses of `C161_never_repaired_fails` are met after a kill. -/
example : let s := run 3 (fresh false) (half 0 ++ [.kill 0])
    s.zip.isSome ∧ s.pt.isSome ∧ ¬ Active (s.pc 0) ∧ s.pt = some [0] := by
  refine ⟨by decide +kernel, by decide +kernel, ?_, by decide +kernel⟩
  have : (run 3 (fresh false) (half 0 ++ [.kill 0])).pc 0 = .dead := by decide +kernel
  rw [this]
  exact fun h => h

end Verif.Ifbo.Download
