import Verif.Run.Life

/-!
# The budget, the error log and the counters of a worker
-/

namespace Neps.Run

open Neps.Store (Disk Handle)

/-- The report a worker has stored but not charged yet. -/
def PC.uncharged : PC → Option Report
  | .budget _ r => some r
  | _ => none

/-- The error entry a worker has still to append, `w` being the worker. -/
def PC.unlogged (w : Nat) : PC → Option (Nat × ErrEntry)
  | .budget _ r => expectedEntry (w, r)
  | .logErr _ r _ => expectedEntry (w, r)
  | _ => none

/-- The trial, report and error in flight belong together. -/
def PC.matching : PC → Prop
  | .budget t r => t.id = r.trialId
  | .logErr t r e => t.id = r.trialId ∧ r.err = some e
  | _ => True

structure BookInv (W : World) : Prop where
  budget : W.budget = ((charges W.log).map (fun p => p.2.cost.getD 0)).sum
  charged : ∀ p, (reports W.log).count p = (charges W.log).count p +
    (if (W.worker p.1).pc.uncharged = some p.2 then 1 else 0)
  matching : ∀ w, (W.worker w).pc.matching
  errs : W.errs.reverse = (appends W.log).map Prod.snd
  logged : ∀ p, ((reports W.log).filterMap expectedEntry).count p = (appends W.log).count p +
    (if (W.worker p.1).pc.unlogged p.1 = some p then 1 else 0)

theorem expectedEntry_fst {p q} (h : expectedEntry p = some q) : q.1 = p.1 := by
  unfold expectedEntry at h
  split at h
  · simp at h
  · simp only [Option.some.injEq] at h; rw [← h]

theorem BookInv.local {W : World} (I : BookInv W) (W' : World) (w : Nat)
    (hb : W'.budget = W.budget) (he : W'.errs = W.errs) (hr : reports W'.log = reports W.log)
    (hc : charges W'.log = charges W.log) (hl : appends W'.log = appends W.log)
    (hw : ∀ w', w' ≠ w → (W'.worker w').pc = (W.worker w').pc)
    (h0 : (W.worker w).pc.insideReport = false)
    (hn : (W'.worker w).pc.insideReport = false) : BookInv W' := by
  have hu : ∀ pc : PC, pc.insideReport = false → pc.uncharged = none ∧ (∀ w, pc.unlogged w = none)
      ∧ pc.matching := by
    intro pc h
    cases pc <;> simp_all [PC.insideReport, PC.uncharged, PC.unlogged, PC.matching]
  obtain ⟨a0, b0, c0⟩ := hu _ h0
  obtain ⟨a1, b1, c1⟩ := hu _ hn
  refine ⟨by rw [hb, hc]; exact I.budget, ?_, ?_, by rw [he, hl]; exact I.errs, ?_⟩
  · intro p
    rw [hr, hc, I.charged p]
    by_cases e : p.1 = w
    · rw [e, a0, a1]
    · rw [hw _ e]
  · intro w'
    by_cases e : w' = w
    · rw [e]; exact c1
    · rw [hw _ e]; exact I.matching w'
  · intro p
    rw [hr, hl, I.logged p]
    by_cases e : p.1 = w
    · rw [e, b0, b1]
    · rw [hw _ e]

theorem Move.not_insideReport {st W x pc pc'} (m : Move st W x pc pc') :
    pc.insideReport = false ∧ pc'.insideReport = false := by
  cases m <;> exact ⟨rfl, rfl⟩

theorem BookInv.trans {fs st W w W'} (C : Coh fs W) (I : BookInv W) (t : Trans fs st W w W') :
    BookInv W' := by
  cases t with
  | idle => exact I
  | kill =>
    have hpc : ∀ w', ((W.killW w).worker w').pc = (W.worker w').pc := by
      intro w'; by_cases e : w' = w <;> simp [e]
    exact ⟨I.budget, by intro p; rw [hpc]; exact I.charged p, by intro p; rw [hpc]; exact I.matching p,
      I.errs, by intro p; rw [hpc]; exact I.logged p⟩
  | torn s loc v n ha hpc' hl hi hvn =>
    exact I.local _ w rfl rfl rfl rfl rfl (by intro w' e; simp [e]) (by rw [hpc']; rfl)
      (by simp [hpc', PC.insideReport])
  | step c _ ha s =>
    cases s with
    | idle => exact I
    | move pc' m =>
      exact I.local _ w rfl rfl rfl rfl rfl (by intro w' e; simp [e]) m.not_insideReport.1
        (by simpa using m.not_insideReport.2)
    | fetch id h hpc hl =>
      exact I.local _ w rfl rfl rfl rfl rfl (by intro w' e; simp [e]) (by rw [hpc]; rfl)
        (by simp [PC.insideReport])
    | create s loc hpc hs hl hi hv =>
      exact I.local _ w rfl rfl rfl rfl rfl (by intro w' e; simp [e]) (by rw [hpc]; rfl)
        (by simp [PC.insideReport])
    | claimOk id h hpc hv =>
      exact I.local _ w rfl rfl rfl rfl rfl (by intro w' e; simp [e]) (by rw [hpc]; rfl)
        (by simp [PC.insideReport])
    | claimLost id h pc' n hpc hv ho =>
      refine I.local _ w rfl rfl rfl rfl rfl (by intro w' e; simp [e]) (by rw [hpc]; rfl) ?_
      rcases ho with ⟨rfl, _⟩ | rfl | rfl <;> simp [PC.insideReport]
    | evalErr id h e hpc he =>
      exact I.local _ w rfl rfl rfl rfl rfl (by intro w' e; simp [e]) (by rw [hpc]; rfl)
        (by simp [PC.insideReport])
    | evalOk id h t r hpc he =>
      exact I.local _ w rfl rfl rfl rfl rfl (by intro w' e; simp [e]) (by rw [hpc]; rfl)
        (by simp [PC.insideReport])
    | reportOk id h t r hpc hv =>
      obtain ⟨dv, o, a, b, hr⟩ := C.result w id h t r hpc
      have hid : t.id = r.trialId := by
        obtain ⟨e1, _, _, e4⟩ := evalTrial_ok hr
        have := congrArg SampledPart.id e1
        simp only [Trial.sampledPart] at this
        rw [Trial.id, this, e4]
      refine ⟨I.budget, ?_, ?_, I.errs, ?_⟩
      · intro p
        have := I.charged p
        simp only [emit_log, goto_log, setDisk_log, reports, charges, List.count_cons, emit_worker,
          goto_worker, setDisk_worker, beq_iff_eq]
        by_cases e : p.1 = w
        · rw [e, hpc] at this
          simp only [PC.uncharged, reduceCtorEq, if_false, Nat.add_zero] at this
          simp only [e, if_true, PC.uncharged, Option.some.injEq, this]
          have : ((w, r) = p) ↔ (r = p.2) := by
            constructor
            · rintro rfl; rfl
            · rintro rfl; rw [← e]
          simp only [this]
        · have hne : ((w, r) = p) ↔ False := by
            constructor
            · rintro rfl; exact e rfl
            · simp
          simp only [e, if_false, hne, Nat.add_zero]
          exact this
      · intro w'
        simp only [emit_worker, goto_worker, setDisk_worker]
        by_cases e : w' = w
        · simp only [e, if_true, PC.matching]; exact hid
        · simp only [e, if_false]; exact I.matching w'
      · intro p
        have := I.logged p
        simp only [emit_log, goto_log, setDisk_log, reports, appends, emit_worker, goto_worker,
          setDisk_worker, List.filterMap_cons]
        by_cases e : p.1 = w
        · rw [e, hpc] at this
          simp only [PC.unlogged, reduceCtorEq, if_false, Nat.add_zero] at this
          simp only [e, if_true, PC.unlogged]
          cases hx : expectedEntry (w, r) with
          | none => simp [this]
          | some q => simp [List.count_cons, this]
        · simp only [e, if_false]
          cases hx : expectedEntry (w, r) with
          | none => simpa using this
          | some q =>
            have hq := expectedEntry_fst hx
            have : q ≠ p := by rintro rfl; exact e hq
            simp only [List.count_cons, beq_iff_eq, this, if_false, Nat.add_zero]
            assumption
    | budget t r pc' hpc ho =>
      have hm := I.matching w
      rw [hpc] at hm
      refine ⟨?_, ?_, ?_, I.errs, ?_⟩
      · simp only [emit_budget, goto_budget, emit_log, goto_log, charges, List.map_cons,
          List.sum_cons]
        rw [I.budget, add_comm]
      · intro p
        have := I.charged p
        simp only [emit_log, goto_log, reports, charges, List.count_cons, emit_worker,
          goto_worker, beq_iff_eq]
        by_cases e : p.1 = w
        · rw [e, hpc] at this
          simp only [PC.uncharged, Option.some.injEq] at this
          have hu : pc'.uncharged = none := by
            rcases ho with ⟨rfl, _⟩ | ⟨_, _, rfl⟩ <;> rfl
          simp only [e, if_true, hu, reduceCtorEq, if_false, Nat.add_zero, this]
          have : ((w, r) = p) ↔ (r = p.2) := by
            constructor
            · rintro rfl; rfl
            · rintro rfl; rw [← e]
          simp only [this]
        · have hne : ((w, r) = p) ↔ False := by
            constructor
            · rintro rfl; exact e rfl
            · simp
          simp only [e, if_false, hne, Nat.add_zero]
          exact this
      · intro w'
        simp only [emit_worker, goto_worker]
        by_cases e : w' = w
        · simp only [e, if_true]
          rcases ho with ⟨rfl, _⟩ | ⟨e', he', rfl⟩
          · trivial
          · exact ⟨hm, he'⟩
        · simp only [e, if_false]; exact I.matching w'
      · intro p
        have := I.logged p
        simp only [emit_log, goto_log, reports, appends, emit_worker, goto_worker]
        by_cases e : p.1 = w
        · rw [e, hpc] at this
          simp only [e, if_true, this]
          rcases ho with ⟨rfl, he⟩ | ⟨e', he', rfl⟩
          · simp [PC.unlogged, expectedEntry, he]
          · rfl
        · simp only [e, if_false]; exact this
    | logErr t r e hpc =>
      have hm := I.matching w
      rw [hpc] at hm
      have hexp : expectedEntry (w, r) = some (w, errEntry w t r e) := by
        simp only [PC.matching, Trial.id] at hm
        simp [expectedEntry, hm.2, errEntry, hm.1, Trial.id]
      refine ⟨I.budget, ?_, ?_, ?_, ?_⟩
      · intro p
        have := I.charged p
        simp only [emit_log, goto_log, reports, charges, emit_worker, goto_worker]
        by_cases e : p.1 = w
        · rw [e, hpc] at this
          simpa [e, PC.uncharged] using this
        · simp only [e, if_false]; exact this
      · intro w'
        simp only [emit_worker, goto_worker]
        by_cases e : w' = w
        · simp only [e, if_true, PC.matching]
        · simp only [e, if_false]; exact I.matching w'
      · simp only [emit_errs, goto_errs, emit_log, goto_log, appends, List.map_cons,
          List.reverse_append, List.reverse_cons, List.reverse_nil, List.nil_append,
          List.singleton_append, I.errs]
      · intro p
        have := I.logged p
        simp only [emit_log, goto_log, reports, appends, emit_worker, goto_worker,
          List.count_cons, beq_iff_eq]
        by_cases e' : p.1 = w
        · rw [e', hpc] at this
          simp only [PC.unlogged, hexp, Option.some.injEq] at this
          simp only [e', if_true, PC.unlogged, reduceCtorEq, if_false, Nat.add_zero]
          exact this
        · have hne : ((w, errEntry w t r e) = p) ↔ False := by
            constructor
            · rintro rfl; exact e' rfl
            · simp
          simp only [e', if_false, hne, Nat.add_zero]
          exact this

theorem bookInv_run (fs st as) : BookInv (run fs st {} as) := by
  have := run_induction fs st (P := fun W => Coh fs W ∧ BookInv W)
    (fun W w W' I t => ⟨I.1.trans t, I.2.trans I.1 t⟩) (W := {})
    ⟨Coh.init fs, by
      refine ⟨by simp [charges], ?_, ?_, by simp [appends], ?_⟩
      · intro p; simp [reports, charges, PC.uncharged]
      · intro w; simp [PC.matching]
      · intro p; simp [reports, appends, PC.unlogged]⟩ as
  exact this.2

/-! ## Refused claims -/

def RefuseInv (W : World) : Prop := ∀ w, (W.worker w).nFailed = refusedSinceClaim w W.log ∨
  ∃ e, (W.worker w).pc = .raised e

theorem RefuseInv.trans {fs st W w W'} (I : RefuseInv W) (t : Trans fs st W w W') :
    RefuseInv W' := by
  intro w'
  have := I w'
  cases t with
  | idle => exact this
  | kill => by_cases e : w' = w <;> simpa [e] using this
  | torn s loc v n ha hpc' hl hi hvn => by_cases e : w' = w <;> simpa [e] using this
  | step c _ ha s =>
    cases s with
    | idle => exact this
    | move pc' m =>
      by_cases e : w' = w
      · subst e
        rcases this with h | ⟨e, h⟩
        · left; simpa using h
        · rw [h] at m; cases m
      · simpa [e] using this
    | claimOk id h hpc hv =>
      by_cases e : w' = w
      · subst e; left; simp [refusedSinceClaim]
      · simpa [e, refusedSinceClaim, Ne.symm (Ne.intro e)] using this
    | claimLost id h pc' n hpc hv ho =>
      by_cases e : w' = w
      · subst e
        rcases ho with ⟨rfl, m, hm, _, rfl⟩ | rfl | rfl
        · left
          rw [hpc] at this
          simp only [reduceCtorEq, exists_false, or_false] at this
          simp [refusedSinceClaim, ← this, hm]
        · right; exact ⟨_, by simp; rfl⟩
        · right; exact ⟨_, by simp; rfl⟩
      · simpa [e, refusedSinceClaim, Ne.symm (Ne.intro e)] using this
    | budget t r pc' hpc ho =>
      by_cases e : w' = w
      · subst e
        rw [hpc] at this
        simp only [reduceCtorEq, exists_false, or_false] at this
        left; simpa [refusedSinceClaim] using this
      · simpa [e, refusedSinceClaim, Ne.symm (Ne.intro e)] using this
    | fetch id h hpc hl | create s loc hpc hs hl hi hv | evalErr id h e hpc he
    | evalOk id h t r hpc he | reportOk id h t r hpc hv | logErr t r e hpc =>
      by_cases e : w' = w
      · subst e
        rw [hpc] at this
        simp only [reduceCtorEq, exists_false, or_false] at this
        left; simpa [refusedSinceClaim] using this
      · simpa [e, refusedSinceClaim, Ne.symm (Ne.intro e)] using this

theorem refuseInv_run (fs st as) : RefuseInv (run fs st {} as) :=
  run_induction fs st (fun _ _ _ I t => I.trans t) (by intro w; simp [refusedSinceClaim]) as

end Neps.Run
