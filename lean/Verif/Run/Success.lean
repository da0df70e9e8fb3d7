import Verif.Run.Survivor

/-!
# Runs in which the objective never raises
-/

namespace Neps.Run

/-- If the worker calls the objective in this action, it returns. -/
def Returns (a : Act) : Prop := ∀ w c, a = .step w c → ∃ v, c.outcome = .returned v

/-- No report, written or about to be written, is one of a failure. -/
structure NoFailure (W : World) : Prop where
  disk : ∀ id t r, (W.disk id).data = some t → t.report = some r → r.reportedAs = .success
  pc : ∀ w id h t r, (W.worker w).pc = .report id h t r → r.reportedAs = .success

theorem NoFailure.local {W : World} (S : NoFailure W) (W' : World) (v : Nat) (hdisk : W'.disk = W.disk)
    (hw : ∀ w, w ≠ v → (W'.worker w).pc = (W.worker w).pc)
    (hv : ∀ id h t r, (W'.worker v).pc = .report id h t r → (W.worker v).pc = .report id h t r ∨
      r.reportedAs = .success) : NoFailure W' := by
  refine ⟨by rw [hdisk]; exact S.disk, ?_⟩
  intro w id h t r hpc
  by_cases e : w = v
  · subst e
    rcases hv id h t r hpc with h' | h'
    · exact S.pc w id h t r h'
    · exact h'
  · rw [hw w e] at hpc
    exact S.pc w id h t r hpc

theorem NoFailure.write {W : World} (S : NoFailure W) (W' : World) (v : Nat) (id : String)
    (x : Option Nat) (n : Nat) (t : Trial)
    (hdisk : W'.disk = fun id' => if id' = id then ⟨x, some t, n⟩ else W.disk id')
    (hw : ∀ w, w ≠ v → (W'.worker w).pc = (W.worker w).pc)
    (hv : ∀ id h t r, (W'.worker v).pc ≠ .report id h t r)
    (ht : ∀ r, t.report = some r → r.reportedAs = .success) : NoFailure W' := by
  refine ⟨?_, ?_⟩
  · intro id' t' r h1 h2
    rw [hdisk] at h1
    by_cases e : id' = id
    · simp only [e, if_true, Option.some.injEq] at h1
      subst h1
      exact ht r h2
    · simp only [e, if_false] at h1
      exact S.disk id' t' r h1 h2
  · intro w id h t r hpc
    by_cases e : w = v
    · subst e; exact absurd hpc (hv _ _ _ _)
    · rw [hw w e] at hpc
      exact S.pc w id h t r hpc

theorem evalTrial_success {fs t₀ dv v a b t r}
    (h : evalTrial fs t₀ dv (.returned v) a b = .ok (t, r)) : r.reportedAs = .success := by
  unfold evalTrial at h
  split at h
  · next h' => simp at h'
  · split at h
    · simp at h
    · simp only [Trial.setComplete, Except.ok.injEq, Prod.mk.injEq] at h
      obtain ⟨-, rfl⟩ := h
      rfl

theorem NoFailure.step {fs s W v c W'} (C : Coh fs W) (S : NoFailure W) (t : Step fs s W v c W')
    (hr : ∃ x, c.outcome = .returned x) : NoFailure W' := by
  cases t with
  | idle => exact S
  | move pc' m =>
    refine S.local _ v rfl (by intro w e; simp [e]) ?_
    intro id h t r hpc
    simp only [goto_worker, if_true] at hpc
    generalize (W.worker v).pc = pc at m
    subst hpc
    cases m
  | fetch id h hpc hl =>
    exact S.local _ v rfl (by intro w e; simp [e]) (by intro id h t r hpc; simp at hpc)
  | create p loc hpc hs hl hi hv =>
    refine S.write _ v p.id _ _ (newTrial v p loc c.now) rfl (by intro w e; simp [e]) (by simp) ?_
    intro r h; simp [newTrial, Trial.new] at h
  | claimOk id h hpc hv =>
    refine S.write _ v id _ _ (h.cur.setEvaluating c.now (workerName v)) rfl (by intro w e; simp [e])
      (by simp) ?_
    intro r h'
    obtain ⟨-, -, -, h4⟩ := C.holds v id h (by rw [hpc]; rfl)
    exact S.disk id h.cur r (h4 hv) h'
  | claimLost id h pc' n hpc hv ho =>
    refine S.local _ v rfl (by intro w e; simp [e]) ?_
    intro id h t r hpc
    simp only [emit_worker, setW_worker, if_true] at hpc
    rcases ho with ⟨rfl, _⟩ | rfl | rfl <;> simp at hpc
  | evalErr id h e hpc he =>
    exact S.local _ v rfl (by intro w e; simp [e]) (by intro id h t r hpc; simp at hpc)
  | evalOk id h t r hpc he =>
    refine S.local _ v rfl (by intro w e; simp [e]) ?_
    intro id' h' t' r' hpc'
    simp only [emit_worker, setW_worker, if_true, PC.report.injEq] at hpc'
    obtain ⟨x, hx⟩ := hr
    rw [hx] at he
    rw [← hpc'.2.2.2]
    exact Or.inr (evalTrial_success he)
  | reportOk id h t r hpc hv =>
    refine S.write _ v id _ _ { t with report := some r } rfl (by intro w e; simp [e]) (by simp) ?_
    intro r' h'
    simp only [Option.some.injEq] at h'
    subst h'
    exact S.pc v id h t r hpc
  | budget t r pc' hpc ho =>
    refine S.local _ v rfl (by intro w e; simp [e]) ?_
    intro id h t r hpc
    simp only [emit_worker, goto_worker, if_true] at hpc
    rcases ho with ⟨rfl, _⟩ | ⟨_, _, rfl⟩ <;> simp at hpc
  | logErr t r e hpc =>
    exact S.local _ v rfl (by intro w e; simp [e]) (by intro id h t r hpc; simp at hpc)

theorem NoFailure.act {fs st W} (C : Coh fs W) (S : NoFailure W) {a : Act}
    (ha : Returns a) (hu : Untorn a) : NoFailure (act fs st W a) := by
  cases a with
  | step w c =>
    simp only [Run.act]
    split
    · exact S.step C (stepW_step _ _ _ _ _) (ha w c rfl)
    · exact S
  | kill w =>
    refine S.local _ w rfl (by intro w' e; simp [Run.act, e]) ?_
    intro id h t r hpc
    exact Or.inl (by simpa [Run.act] using hpc)
  | killCreating w c torn => exact absurd rfl (hu w c torn)

theorem noFailure_run {fs st} (as : List Act) (ha : ∀ a ∈ as, Returns a) (hu : ∀ a ∈ as, Untorn a)
    {W : World} (C : Coh fs W) (S : NoFailure W) : NoFailure (run fs st W as) := by
  induction as generalizing W with
  | nil => exact S
  | cons a as ih =>
    have h1 := ha a (by simp)
    have h2 := hu a (by simp)
    exact ih (fun x hx => ha x (by simp [hx])) (fun x hx => hu x (by simp [hx])) (C.trans (act_trans fs st W a))
      (S.act C h1 h2)

/-- If every call of the objective returns, no trial is reported as failed or crashed. -/
theorem no_failure (fs : String → Option PyFloat) (st : Nat → Settings) (as : List Act)
    (ha : ∀ a ∈ as, Returns a) (hu : ∀ a ∈ as, Untorn a) :
    ∀ t ∈ (run fs st {} as).trials, ∀ r, t.report = some r → r.reportedAs = .success := by
  have S := noFailure_run (fs := fs) (st := st) as ha hu (Coh.init fs) (W := {}) ⟨by
    intro id t r h; simp [Neps.Store.Disk.empty] at h, by intro w id h t r hpc; simp at hpc⟩
  intro t ht r hr
  simp only [World.trials, List.mem_filterMap] at ht
  obtain ⟨id, -, h⟩ := ht
  exact S.disk id t r (stored_eq_some.mp h).2 hr

end Neps.Run
