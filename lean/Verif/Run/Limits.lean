import Verif.Run.Books

/-!
# Invariants about the limits on evaluations and cost
-/

namespace Neps.Run

open Neps.Store (Disk Handle)

/-! ## The evaluations of one worker -/

theorem localCheck_none {s err count cost wall evalTime n}
    (h : localCheck s err count cost wall evalTime = none) (hn : s.maxEvalsWorker = some n) :
    count < n := by
  unfold localCheck at h
  split at h
  · simp at h
  · simp at h
  · simp at h
  · simp at h
  · by_contra hc
    have : reachedN s.maxEvalsWorker count = true := by
      simp only [reachedN, hn, decide_eq_true_eq]; omega
    simp [this] at h

theorem localCheck_evalsWorker {s err count cost wall evalTime}
    (h : localCheck s err count cost wall evalTime = some .evalsWorker) :
    ∃ n, s.maxEvalsWorker = some n ∧ n ≤ count := by
  have key : reachedN s.maxEvalsWorker count = true := by
    unfold localCheck at h
    split at h
    · simp at h
    · simp at h
    · simp at h
    · simp at h
    · by_contra hc
      simp only [hc, if_false] at h
      split at h
      · simp at h
      · split at h
        · simp at h
        · split at h <;> simp at h
  unfold reachedN at key
  split at key
  · simp at key
  · next n hn => exact ⟨n, hn, by simpa using key⟩

/-- The worker has passed the local checks and not called the objective since (or called it and
failed). -/
def PC.pastCheck : PC → Bool
  | .readErrors | .sweepList | .sweep _ _ | .pendList | .pend _ _ | .fetch _ | .sample
  | .claim _ _ | .eval _ _ | .raised (.evaluation _) => true
  | _ => false

/-- The objective was called but the call is not counted. -/
def PC.uncounted : PC → Bool
  | .raised (.evaluation _) => true
  | _ => false

structure CountInv (s : Settings) (W : World) (w : Nat) : Prop where
  calls : callsBy W.log w = (W.worker w).count + (W.worker w).pc.uncounted.toNat
  below : ∀ n, s.maxEvalsWorker = some n →
    ((W.worker w).pc.pastCheck = true → (W.worker w).count < n) ∧ (W.worker w).count ≤ n
  stop : ∀ n, s.maxEvalsWorker = some n → (W.worker w).pc = .stopped .evalsWorker →
    (W.worker w).count = n

theorem CountInv.other {s} {W W' : World} {w : Nat} (I : CountInv s W w)
    (hw : W'.worker w = W.worker w) (hl : callsBy W'.log w = callsBy W.log w) : CountInv s W' w :=
  ⟨by rw [hw, hl]; exact I.calls, by rw [hw]; exact I.below, by rw [hw]; exact I.stop⟩

theorem sharedErrCheck_ne {s errs h} (e : sharedErrCheck s errs = some h) : h ≠ .evalsWorker := by
  rintro rfl
  unfold sharedErrCheck at e
  split at e
  · split at e <;> simp at e
  · split at e <;> simp at e
  · simp at e

theorem globalCheck_ne {s seen h} (e : globalCheck s seen = some h) : h ≠ .evalsWorker := by
  rintro rfl
  unfold globalCheck at e
  split at e
  · simp at e
  · split at e
    · simp at e
    · split at e <;> simp at e

theorem CountInv.trans {fs st W w W'} (w₀ : Nat) (I : CountInv (st w₀) W w₀)
    (t : Trans fs st W w W') : CountInv (st w₀) W' w₀ := by
  by_cases hw : w₀ = w
  case neg =>
    refine I.other (t.other hw) ?_
    cases t with
    | idle => rfl
    | kill => rfl
    | torn => rfl
    | step c _ ha s =>
      cases s <;> simp [callsBy, evaluations, Ne.symm (Ne.intro hw)]
  subst hw
  cases t with
  | idle => exact I
  | kill =>
    exact ⟨by simpa using I.calls, by simpa using I.below, by simpa using I.stop⟩
  | torn s loc v n ha hpc hl hi hvn =>
    exact ⟨by simpa using I.calls, by simpa using I.below, by simpa using I.stop⟩
  | step c _ ha s =>
    obtain ⟨h1, h2, h3⟩ := I
    cases s with
    | idle => exact ⟨h1, h2, h3⟩
    | move pc' m =>
      generalize hpc : (W.worker w₀).pc = pc at m
      rw [hpc] at h1 h2 h3
      cases m
      case haltTop wall h hh hr =>
        refine ⟨by simpa [PC.uncounted] using h1, ?_, ?_⟩
        · intro n hn; simpa [PC.pastCheck] using (h2 n hn).2
        · intro n hn
          simp only [goto_worker, if_true, PC.stopped.injEq]
          rintro rfl
          obtain ⟨m, hm, hle⟩ := localCheck_evalsWorker hh
          rw [hn] at hm; cases hm
          have := (h2 n hn).2
          omega
      case topErrors wall hh hr =>
        exact ⟨by simpa [PC.uncounted] using h1, fun n hn => by
          have := localCheck_none hh hn
          simp only [goto_worker, if_true]; omega, by simp⟩
      case topSweep wall hh hr hg =>
        exact ⟨by simpa [PC.uncounted] using h1, fun n hn => by
          have := localCheck_none hh hn
          simp only [goto_worker, if_true]; omega, by simp⟩
      case topPend wall hh hr hg =>
        exact ⟨by simpa [PC.uncounted] using h1, fun n hn => by
          have := localCheck_none hh hn
          simp only [goto_worker, if_true]; omega, by simp⟩
      case haltErr h hh hr =>
        exact ⟨by simpa [PC.uncounted] using h1, fun n hn => by
          have := h2 n hn; simpa [PC.pastCheck] using this.2, by
          intro n hn
          simp only [goto_worker, if_true, PC.stopped.injEq]
          exact fun e => absurd e (sharedErrCheck_ne hh)⟩
      case sweepHalt seen h hh =>
        exact ⟨by simpa [PC.uncounted] using h1, fun n hn => by
          have := h2 n hn; simpa [PC.pastCheck] using this.2, by
          intro n hn
          simp only [goto_worker, if_true, PC.stopped.injEq]
          exact fun e => absurd e (globalCheck_ne hh)⟩
      all_goals
        exact ⟨by simpa [PC.uncounted] using h1, fun n hn => by
          have := h2 n hn; simp_all [PC.pastCheck], by simp⟩
    | fetch id h hpc hl =>
      rw [hpc] at h1 h2
      exact ⟨by simpa [PC.uncounted] using h1, fun n hn => by
          have := h2 n hn; simp_all [PC.pastCheck], by simp⟩
    | create s loc hpc hs hl hi hv =>
      rw [hpc] at h1 h2
      exact ⟨by simpa [PC.uncounted, callsBy, evaluations] using h1, fun n hn => by
          have := h2 n hn; simp_all [PC.pastCheck], by simp⟩
    | claimOk id h hpc hv =>
      rw [hpc] at h1 h2
      exact ⟨by simpa [PC.uncounted, callsBy, evaluations] using h1, fun n hn => by
          have := h2 n hn; simp_all [PC.pastCheck], by simp⟩
    | claimLost id h pc' n hpc hv ho =>
      rw [hpc] at h1 h2
      rcases ho with ⟨rfl, _⟩ | rfl | rfl
      all_goals
        exact ⟨by simpa [PC.uncounted, callsBy, evaluations] using h1, fun n hn => by
          have := h2 n hn; simp_all [PC.pastCheck], by simp⟩
    | evalErr id h e hpc he =>
      rw [hpc] at h1 h2
      exact ⟨by simpa [PC.uncounted, callsBy, evaluations] using h1, fun n hn => by
          have := h2 n hn; simp_all [PC.pastCheck], by simp⟩
    | evalOk id h t r hpc he =>
      rw [hpc] at h1 h2
      exact ⟨by simpa [PC.uncounted, callsBy, evaluations] using h1, fun n hn => by
          have := (h2 n hn).1 rfl
          simp only [emit_worker, setW_worker, if_true, PC.pastCheck]
          exact ⟨by simp, by omega⟩, by simp⟩
    | reportOk id h t r hpc hv =>
      rw [hpc] at h1 h2
      exact ⟨by simpa [PC.uncounted, callsBy, evaluations] using h1, fun n hn => by
          have := h2 n hn; simp_all [PC.pastCheck], by simp⟩
    | budget t r pc' hpc ho =>
      rw [hpc] at h1 h2
      rcases ho with ⟨rfl, _⟩ | ⟨_, _, rfl⟩
      all_goals
        exact ⟨by simpa [PC.uncounted, callsBy, evaluations] using h1, fun n hn => by
          have := h2 n hn; simp_all [PC.pastCheck], by simp⟩
    | logErr t r e hpc =>
      rw [hpc] at h1 h2
      exact ⟨by simpa [PC.uncounted, callsBy, evaluations] using h1, fun n hn => by
          have := h2 n hn; simp_all [PC.pastCheck], by simp⟩

theorem countInv_run (fs st as w) : CountInv (st w) (run fs st {} as) w :=
  run_induction fs st (P := fun W => CountInv (st w) W w) (fun _ _ _ I t => I.trans w t)
    ⟨by simp [callsBy, evaluations, PC.uncounted], by simp [PC.pastCheck], by simp⟩ as

end Neps.Run
