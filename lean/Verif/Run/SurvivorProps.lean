import Verif.Run.Survivor
import Verif.Run.TogetherProps

/-!
# C147 Workers that get in each other's way still do the job

A worker can die of a conflict with another one (`C131`, `C09`): it loses the race for its first trial,
or the report of a trial that two workers took up is rejected. These theorems say that this never does
any harm to the run as a whole.
-/

namespace Neps.Run

/-- In every execution without a crash in the middle of creating a trial, the worker that took up the
latest trial meets no conflict afterwards: if it ends with an exception, it is one of the optimizer, of
an objective whose result cannot be understood, or one it was asked to raise. As long as no worker has
taken up a trial, the same holds for all. -/
theorem C147_last_meets_no_conflict (fs : String → Option PyFloat) (st : Nat → Settings)
    (as : List Act) (hu : ∀ a ∈ as, Untorn a) (w : Nat)
    (hw : lastClaimer (run fs st {} as) = some w ∨ lastClaimer (run fs st {} as) = none)
    (e : RunErr) (he : ((run fs st {} as).worker w).pc = .raised e) :
    (∃ x, e = .evaluation x) ∨ e = .failedToGetNext ∨ e = .workerRaise := by
  have S := safe_run (st := st) as hu (Coh.init fs) Safe.init
  have := S.fine w (by
    intro v hv
    rcases hw with hw | hw
    · rw [hw] at hv; simpa using hv.symm
    · rw [hw] at hv; simp at hv)
  rw [he] at this
  cases e with
  | evaluation x => exact Or.inl ⟨x, rfl⟩
  | failedToGetNext => exact Or.inr (Or.inl rfl)
  | workerRaise => exact Or.inr (Or.inr rfl)
  | _ => simp [Fine, RunErr.conflict] at this

/-- No trial is lost. Whatever the schedule is, and whoever is killed and when: if all workers are
through, then every stored trial has been evaluated, except those a worker was killed with. -/
theorem C147_no_trial_lost (fs : String → Option PyFloat) (st : Nat → Settings) (as : List Act)
    (n : Nat) (hby : OnlyBy (· < n) as) (hp : ∀ a ∈ as, Understood fs st a)
    (ht : ∀ w < n, Through (run fs st {} as) w) (id : String) (t : Trial)
    (hs : (run fs st {} as).stored id = some t) :
    Evaluated t ∨ ∃ w < n, ((run fs st {} as).worker w).alive = false ∧
      ∃ h, ((run fs st {} as).worker w).pc = .claim id h ∨
        ((run fs st {} as).worker w).pc = .eval id h ∨
        ∃ t' r, ((run fs st {} as).worker w).pc = .report id h t' r := by
  have O := owned_run (st := st) as hp (Coh.init fs) (by
    intro id t ht; simp [World.stored, Neps.Store.Disk.empty, Store.load] at ht)
  rcases O id t hs with h | ⟨w, h, h1, h2⟩
  · exact Or.inl h
  · right
    have hw : w < n := by
      by_contra hw
      have := run_other fs st w as (fun a ha e => hw (e ▸ hby a ha)) {}
      rw [this] at h1
      simp [PC.handle] at h1
    have hx : ∃ h, ((run fs st {} as).worker w).pc = .claim id h ∨
        ((run fs st {} as).worker w).pc = .eval id h ∨
        ∃ t' r, ((run fs st {} as).worker w).pc = .report id h t' r := by
      revert h1
      cases ((run fs st {} as).worker w).pc <;> simp only [PC.handle, Option.some.injEq,
        Prod.mk.injEq, reduceCtorEq, false_implies] <;> rintro ⟨rfl, rfl⟩
      · exact ⟨_, Or.inl rfl⟩
      · exact ⟨_, Or.inr (Or.inl rfl)⟩
      · exact ⟨_, Or.inr (Or.inr ⟨_, _, rfl⟩)⟩
    refine ⟨w, hw, ?_, hx⟩
    rcases ht w hw with h | ⟨x, h⟩ | ⟨x, h⟩
    · exact h
    · rw [h] at h1; simp [PC.handle] at h1
    · rw [h] at h1; simp [PC.handle] at h1

theorem after_succ (fs st σ k) : after fs st σ (k + 1) = act fs st (after fs st σ k) (σ k) := by
  simp [after, List.range_succ, run]

theorem after_alive {fs st} {σ : Nat → Act} (hσ : ∀ i, ∃ w c, σ i = .step w c) (k w : Nat) :
    ((after fs st σ k).worker w).alive = true := by
  induction k with
  | zero => rfl
  | succ k ih =>
    rw [after_succ]
    obtain ⟨v, c, hv⟩ := hσ k
    rw [hv]
    simp only [act]
    split
    swap
    · exact ih
    have s := stepW_step fs (st v) (after fs st σ k) v c
    generalize stepW fs (st v) (after fs st σ k) v c = W' at s
    by_cases e : w = v
    · subst e
      cases s <;> simpa using ih
    · cases s <;> simpa [e] using ih

theorem raise_onlyTotal {fs st w N} (hs : OnlyTotal (st w) N) (as : List Act) :
    ((run fs st {} as).worker w).pc ≠ .raised .workerRaise := by
  refine run_induction fs st (P := fun W => (W.worker w).pc ≠ .raised .workerRaise) ?_ (by simp) as
  intro W v W' I t
  by_cases e : w = v
  case neg => rw [t.other e]; exact I
  subst e
  cases t with
  | idle => exact I
  | kill => simpa using I
  | torn s loc x n ha hpc => simp [hpc]
  | step c _ ha s =>
    cases s with
    | idle => exact I
    | move pc' mv =>
      generalize hpc : (W.worker w).pc = pc at mv
      have hfree := localCheck_free hs.onError hs.evalsWorker hs.costWorker hs.wallclock hs.timeWorker
      cases mv
      case raiseTop wall h hr hh => rw [hfree] at hr; simp at hr
      case raiseErr h hr hh => simp [sharedErrCheck, hs.onError] at hr
      all_goals simp
    | claimLost id h pc' n hpc hv ho => rcases ho with ⟨rfl, _⟩ | rfl | rfl <;> simp
    | budget t r pc' hpc ho => rcases ho with ⟨rfl, _⟩ | ⟨_, _, rfl⟩ <;> simp
    | _ => simp

/-- If the optimizer answers as long as `P` does not hold, then in the end `P` holds or the limit is
reached; in both cases there is nothing left to evaluate. -/
theorem job_done_or (P : World → Prop) (fs : String → Option PyFloat) (st : Nat → Settings)
    (n N : Nat) (inc : Bool) (hn : 0 < n)
    (hs : ∀ w < n, OnlyTotal (st w) N ∧ (st w).includeInProgress = inc)
    (σ : Nat → Act) (hσ : ∀ i, ∃ w < n, ∃ c, σ i = .step w c) (hf : Fair n σ)
    (hp : ∀ i, Understood fs st (σ i))
    (hm : ∀ i, P (after fs st σ i) → P (after fs st σ (i + 1)))
    (ha : ∀ i, Answered (after fs st σ i) (σ i) ∨ P (after fs st σ i)) :
    ∃ k, ∀ j ≥ k, (∀ t ∈ (after fs st σ j).trials, Evaluated t) ∧
      (P (after fs st σ j) ∨ N ≤ (after fs st σ j).trials.length ∧
        ∃ w < n, ((after fs st σ j).worker w).pc = .stopped .evalsTotal) ∧
      ∀ w < n, Through (after fs st σ j) w := by
  have hwho : ∀ i, (σ i).who < n := by
    intro i
    obtain ⟨w, hw, c, h⟩ := hσ i
    rw [h]; exact hw
  have hun : ∀ i, Untorn (σ i) := by
    intro i w' c' torn e
    obtain ⟨w, hw, c, h⟩ := hσ i
    rw [h] at e; simp at e
  obtain ⟨k, hk⟩ := C131_all_through fs st n inc
    (Or.inr (fun w hw => ⟨⟨N, (hs w hw).1.total⟩, (hs w hw).2⟩)) σ hwho hf
  refine ⟨k, fun j hj => ?_⟩
  have hT := hk j hj
  have halive := fun w => after_alive (fs := fs) (st := st)
    (fun i => (hσ i).imp (fun w h => h.2)) j w
  have hC : ∀ i, Coh fs (after fs st σ i) := fun i => coh_run fs st _
  have hS : ∀ i, Safe (after fs st σ i) := fun i => safe_run _ (by
    intro a ha
    obtain ⟨i, _, rfl⟩ := List.mem_map.mp ha
    exact hun i) (Coh.init fs) Safe.init
  have hV : ∀ i, Served P (after fs st σ i) := by
    intro i
    induction i with
    | zero => intro w e h; simp [after, run] at h
    | succ i ih =>
      have hm' := hm i
      rw [after_succ] at hm' ⊢
      exact ih.act (hC i) (hS i) hm' (hp i) (ha i) (hun i)
  have hmem : OnlyBy (· < n) ((List.range j).map σ) := by
    intro a ha
    obtain ⟨i, _, rfl⟩ := List.mem_map.mp ha
    exact hwho i
  -- the worker that took up the latest trial
  have hfav : ∃ w < n, lastClaimer (after fs st σ j) = some w ∨
      lastClaimer (after fs st σ j) = none := by
    cases hl : lastClaimer (after fs st σ j) with
    | none => exact ⟨0, hn, Or.inr rfl⟩
    | some v => exact ⟨v, lastClaimer_mem (p := (· < n)) _ hmem hl, Or.inl rfl⟩
  obtain ⟨w, hw, hlast⟩ := hfav
  have hstop : P (after fs st σ j) ∨ ((after fs st σ j).worker w).pc = .stopped .evalsTotal := by
    rcases hT w hw with h | ⟨h, hh⟩ | ⟨e, he⟩
    · rw [halive w] at h; simp at h
    · exact Or.inr (by rw [hh, stopped_onlyTotal (hs w hw).1 _ h hh])
    · left
      rcases C147_last_meets_no_conflict fs st _ (by
        intro a ha
        obtain ⟨i, _, rfl⟩ := List.mem_map.mp ha
        exact hun i) w hlast e he with ⟨x, rfl⟩ | rfl | rfl
      · exact absurd rfl ((hV j w _ he).2 x)
      · exact (hV j w _ he).1 rfl
      · exact absurd he (raise_onlyTotal (hs w hw).1 _)
  refine ⟨?_, ?_, hT⟩
  · intro t ht
    simp only [World.trials, List.mem_filterMap] at ht
    obtain ⟨id, _, ht⟩ := ht
    rcases C147_no_trial_lost fs st _ n hmem (by
      intro a ha
      obtain ⟨i, _, rfl⟩ := List.mem_map.mp ha
      exact hp i) hT id t ht with h | ⟨v, _, h, _⟩
    · exact h
    · have := halive v
      rw [after] at this
      rw [this] at h; simp at h
  · refine hstop.imp id (fun hstop => ⟨?_, w, hw, hstop⟩)
    refine (C131_stopped_reached fs st _ w N (hs w hw).1.total hstop).trans ?_
    rw [← evalCount_eq_spent]
    unfold evalCount
    split <;> exact List.countP_le_length

/-- Any number of workers with `max_evaluations_total = N` as the only limit, none of which is killed,
do the job in every fair schedule: in the end there are at least `N` trials, all of them have been
evaluated, and at least one worker has returned from `neps.run`. The optimizer is supposed to answer
with new ids and the results of the objective to be understandable, but nothing is supposed about the
races between the workers. -/
theorem C147_job_done (fs : String → Option PyFloat) (st : Nat → Settings) (n N : Nat) (inc : Bool)
    (hn : 0 < n) (hs : ∀ w < n, OnlyTotal (st w) N ∧ (st w).includeInProgress = inc)
    (σ : Nat → Act) (hσ : ∀ i, ∃ w < n, ∃ c, σ i = .step w c) (hf : Fair n σ)
    (hp : ∀ i, Understood fs st (σ i)) (ha : ∀ i, Answered (after fs st σ i) (σ i)) :
    ∃ k, ∀ j ≥ k,
      N ≤ (after fs st σ j).trials.length ∧ (∀ t ∈ (after fs st σ j).trials, Evaluated t) ∧
      (∃ w < n, ((after fs st σ j).worker w).pc = .stopped .evalsTotal) ∧
      ∀ w < n, Through (after fs st σ j) w := by
  obtain ⟨k, hk⟩ := job_done_or (fun _ => False) fs st n N inc hn hs σ hσ hf hp (fun _ h => h)
    (fun i => Or.inl (ha i))
  refine ⟨k, fun j hj => ?_⟩
  obtain ⟨h1, h2, h3⟩ := hk j hj
  rcases h2 with h2 | h2
  · exact h2.elim
  · exact ⟨h2.1, h1, h2.2, h3⟩

/-! ## Cases that meet the hypotheses -/

/-- Worker 0 creates a trial, worker 1 finds it pending, worker 0 takes it up, worker 1 takes it up as
well, and worker 0 dies because its report is rejected; worker 1 has the latest claim, reports and
stops. -/
example :
    let as := go 0 6 (propose "1") ++ go 1 7 (propose "2") ++ go 0 1 (propose "1") ++
      go 1 2 (propose "2") ++ go 0 2 (propose "1") ++ go 1 7 (propose "2")
    let W := run noFloat (limited 1) {} as
    (∀ a ∈ as, Untorn a) ∧ lastClaimer W = some 1 ∧
    (W.worker 0).pc = .raised .reportRejected ∧ (W.worker 1).pc = .stopped .evalsTotal := by
  refine ⟨?_, by decide +kernel, by decide +kernel, by decide +kernel⟩
  intro a ha w c torn e
  subst e
  simp [go] at ha

/-- A new name for every step. -/
def stepName (i : Nat) : String := String.ofList (List.replicate i 'x')

theorem stepName_inj {i j : Nat} (h : stepName i = stepName j) : i = j := by
  have := congrArg String.length h
  simpa [stepName] using this

/-- Three workers that take turns. -/
def inTurn (i : Nat) : Act := .step (i % 3) (propose (stepName i))

theorem inTurn_ids (fs st i) : ∀ id ∈ (after fs st inTurn i).ids, ∃ j < i, id = stepName j := by
  induction i with
  | zero => simp [after, run]
  | succ i ih =>
    rw [after_succ]
    simp only [inTurn, act]
    have hold : ∀ id ∈ (after fs st inTurn i).ids, ∃ j < i + 1, id = stepName j := by
      intro id hid
      obtain ⟨j, hj, h⟩ := ih id hid
      exact ⟨j, by omega, h⟩
    split
    swap
    · exact hold
    have s := stepW_step fs (st (i % 3)) (after fs st inTurn i) (i % 3) (propose (stepName i))
    generalize stepW fs (st (i % 3)) (after fs st inTurn i) (i % 3) (propose (stepName i)) = W' at s
    cases s with
    | create p loc hpc hs hl hi hv =>
      intro id hid
      simp only [emit_ids, goto_ids, List.mem_append, List.mem_singleton] at hid
      rcases hid with hid | hid
      · exact hold id hid
      · simp only [propose, Option.some.injEq] at hs
        subst hs
        exact ⟨i, by omega, hid⟩
    | _ => exact hold

/-- Three workers with `max_evaluations_total = 4`. -/
example : ∃ k, ∀ j ≥ k,
    4 ≤ (after noFloat (limited 4) inTurn j).trials.length ∧
    (∀ t ∈ (after noFloat (limited 4) inTurn j).trials, Evaluated t) ∧
    (∃ w < 3, ((after noFloat (limited 4) inTurn j).worker w).pc = .stopped .evalsTotal) ∧
    ∀ w < 3, Through (after noFloat (limited 4) inTurn j) w := by
  refine C147_job_done noFloat (limited 4) 3 4 true (by omega)
    (fun w _ => ⟨⟨rfl, rfl, rfl, rfl, rfl, rfl, rfl, rfl⟩, rfl⟩) inTurn
    (fun i => ⟨i % 3, Nat.mod_lt _ (by omega), _, rfl⟩) ?_ ?_ ?_
  · intro w hw k
    refine ⟨3 * k + w, by omega, propose (stepName (3 * k + w)), ?_⟩
    unfold inTurn
    have : (3 * k + w) % 3 = w := by omega
    rw [this]
  · intro i w c v h hv
    simp only [inTurn, Act.step.injEq] at h
    obtain ⟨rfl, rfl⟩ := h
    simp only [propose, Outcome.returned.injEq] at hv
    subst hv
    exact ⟨_, rfl⟩
  · intro i w c h _
    simp only [inTurn, Act.step.injEq] at h
    obtain ⟨rfl, rfl⟩ := h
    refine ⟨_, rfl, ?_, by simp⟩
    intro hid
    obtain ⟨j, hj, h⟩ := inTurn_ids _ _ _ _ hid
    have := stepName_inj h
    omega

end Neps.Run
