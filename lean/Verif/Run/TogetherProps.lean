import Verif.Run.TogetherDone
import Verif.Run.ProgressProps

/-!
# C131 Workers that run together come to an end

Nothing is assumed about the optimizer, the objective, clocks, listing orders, crashes or the order in
which the workers take their steps.
-/

namespace Neps.Run

/-- Any number of workers with a limit of their own (`max_evaluations_per_run`) take a bounded number
of steps together, whatever the schedule is. -/
theorem C131_per_worker (fs : String → Option PyFloat) (st : Nat → Settings) (n : Nat)
    (hs : ∀ w < n, ∃ K, (st w).maxEvalsWorker = some K) :
    ∃ B, ∀ as, OnlyBy (· < n) as → effort fs st {} as ≤ B := by
  have hK : ∀ w < n, (st w).maxEvalsWorker = some ((st w).maxEvalsWorker.getD 0) := by
    intro w hw
    obtain ⟨K, h⟩ := hs w hw
    simp [h]
  exact ⟨_, (ownScheme fs st n _ hK).bounded⟩

/-- The same for a limit on the total (`max_evaluations_total`), whether trials in progress count
(`continue_until_max_evaluation_completed=False`) or not. -/
theorem C131_total (fs : String → Option PyFloat) (st : Nat → Settings) (n : Nat) (inc : Bool)
    (hs : ∀ w < n, (∃ N, (st w).maxEvalsTotal = some N) ∧ (st w).includeInProgress = inc) :
    ∃ B, ∀ as, OnlyBy (· < n) as → effort fs st {} as ≤ B := by
  have hN : ∀ w < n, (st w).maxEvalsTotal = some ((st w).maxEvalsTotal.getD 0) ∧
      (st w).includeInProgress = inc := by
    intro w hw
    obtain ⟨⟨N, h⟩, hi⟩ := hs w hw
    exact ⟨by simp [h], hi⟩
  exact ⟨_, (totalScheme fs st n inc _ hN).bounded⟩

/-- Hence, in an endless schedule in which every worker gets its turn again and again, a time comes
when all workers are through. -/
theorem C131_all_through (fs : String → Option PyFloat) (st : Nat → Settings) (n : Nat) (inc : Bool)
    (hs : (∀ w < n, ∃ K, (st w).maxEvalsWorker = some K) ∨
      ∀ w < n, (∃ N, (st w).maxEvalsTotal = some N) ∧ (st w).includeInProgress = inc)
    (σ : Nat → Act) (hσ : ∀ i, (σ i).who < n) (hf : Fair n σ) :
    ∃ k, ∀ j ≥ k, ∀ w < n, Through (after fs st σ j) w := by
  have : ∃ B, ∀ as, OnlyBy (· < n) as → effort fs st {} as ≤ B := by
    rcases hs with hs | hs
    · exact C131_per_worker fs st n hs
    · exact C131_total fs st n inc hs
  obtain ⟨B, hB⟩ := this
  exact through_of_bounded hB σ hσ hf

/-- A worker that stops because of `max_evaluations_total = N` leaves a directory with at least `N`
evaluations, and it stays that way. -/
theorem C131_stopped_reached (fs : String → Option PyFloat) (st : Nat → Settings) (as : List Act)
    (w N : Nat) (hs : (st w).maxEvalsTotal = some N)
    (h : ((run fs st {} as).worker w).pc = .stopped .evalsTotal) :
    N ≤ spent (st w) (run fs st {} as).trials := by
  rw [← evalCount_eq_spent, evalCount_tal rfl]
  exact (saw_run hs as).halted h

theorem stopped_onlyTotal {fs st w N} (hs : OnlyTotal (st w) N) (as : List Act) :
    ∀ h, ((run fs st {} as).worker w).pc = .stopped h → h = .evalsTotal := by
  refine run_induction fs st
    (P := fun W => ∀ h, (W.worker w).pc = .stopped h → h = .evalsTotal) ?_ (by simp) as
  intro W v W' I t
  by_cases e : w = v
  case neg => rw [t.other e]; exact I
  subst e
  cases t with
  | idle => exact I
  | kill => simpa using I
  | torn s loc x n ha hpc => simp [hpc]
  | step c _ ha s =>
    cases s with
    | idle => exact I
    | move pc' mv =>
      generalize hpc : (W.worker w).pc = pc at mv
      have hfree := localCheck_free hs.onError hs.evalsWorker hs.costWorker hs.wallclock hs.timeWorker
      cases mv
      case haltTop wall h hr hh => rw [hfree] at hr; simp at hr
      case haltErr h hr hh => simp [sharedErrCheck, hs.onError] at hr
      case sweepHalt seen h hh =>
        simp only [goto_worker, if_true, PC.stopped.injEq]
        rintro _ rfl
        simp only [globalCheck, hs.costTotal, hs.timeTotal, reached] at hh
        split at hh
        · simpa using hh.symm
        · simp at hh
      all_goals simp
    | claimLost id h pc' n hpc hv ho => rcases ho with ⟨rfl, _⟩ | rfl | rfl <;> simp
    | budget t r pc' hpc ho => rcases ho with ⟨rfl, _⟩ | ⟨_, _, rfl⟩ <;> simp
    | _ => simp

/-- With `max_evaluations_total = N` as the only limit the job gets done, in every fair schedule: either
there are `N` evaluations in the end, or every single worker was killed or died of an exception. -/
theorem C131_job_done (fs : String → Option PyFloat) (st : Nat → Settings) (n N : Nat) (inc : Bool)
    (hs : ∀ w < n, OnlyTotal (st w) N ∧ (st w).includeInProgress = inc)
    (σ : Nat → Act) (hσ : ∀ i, (σ i).who < n) (hf : Fair n σ) :
    ∃ k, ∀ j ≥ k,
      (∀ w < n, N ≤ spent (st w) (after fs st σ j).trials) ∨
      ∀ w < n, ((after fs st σ j).worker w).alive = false ∨
        ∃ e, ((after fs st σ j).worker w).pc = .raised e := by
  obtain ⟨k, hk⟩ := C131_all_through fs st n inc
    (Or.inr (fun w hw => ⟨⟨N, (hs w hw).1.total⟩, (hs w hw).2⟩)) σ hσ hf
  refine ⟨k, fun j hj => ?_⟩
  by_cases hstop : ∃ w < n, ∃ h, ((after fs st σ j).worker w).pc = .stopped h
  · left
    obtain ⟨w, hw, h, hh⟩ := hstop
    have he := stopped_onlyTotal (hs w hw).1 _ h hh
    rw [he] at hh
    have hr := C131_stopped_reached fs st _ w N (hs w hw).1.total hh
    intro v hv
    rw [← evalCount_eq_spent, evalCount_tal (hs v hv).2]
    rwa [← evalCount_eq_spent, evalCount_tal (hs w hw).2] at hr
  · right
    intro w hw
    rcases hk j hj w hw with h | h | h
    · exact Or.inl h
    · exact absurd ⟨w, hw, h⟩ hstop
    · exact Or.inr h

/-! ## Cases that meet the hypotheses -/

/-- Three workers that take turns; the first one is killed at the beginning of its hundredth turn. -/
def turns (i : Nat) : Act :=
  if i = 300 then .kill 0 else .step (i % 3) (propose (toString i))

theorem turns_fair : Fair 3 turns := by
  intro w hw k
  refine ⟨3 * (k + 101) + w, by omega, propose (toString (3 * (k + 101) + w)), ?_⟩
  unfold turns
  rw [if_neg (by omega)]
  have : (3 * (k + 101) + w) % 3 = w := by omega
  rw [this]

/-- Three workers with `max_evaluations_total = 4`. -/
example : ∃ k, ∀ j ≥ k,
    (∀ w < 3, 4 ≤ spent (limited 4 w) (after noFloat (limited 4) turns j).trials) ∨
    ∀ w < 3, ((after noFloat (limited 4) turns j).worker w).alive = false ∨
      ∃ e, ((after noFloat (limited 4) turns j).worker w).pc = .raised e := by
  refine C131_job_done noFloat (limited 4) 3 4 true
    (fun w _ => ⟨⟨rfl, rfl, rfl, rfl, rfl, rfl, rfl, rfl⟩, rfl⟩) turns (fun i => ?_) turns_fair
  unfold turns
  split
  · simp [Act.who]
  · simp only [Act.who]; omega

end Neps.Run
