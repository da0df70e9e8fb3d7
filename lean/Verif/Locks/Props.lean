import Verif.Locks.Witness

/-!
# C138: processes do not block each other for ever
-/

namespace Neps.Locks

/-- **C138.** In every reachable state a lock is held by one process at most. -/
theorem C138_exclusive (as : List Act) (p q : Nat) (l : Lock) (hp : l ∈ (run as p).held)
    (hq : l ∈ (run as q).held) : p = q :=
  (inv_run as).excl p q l hp hq

/-- **C138.** While the objective runs, its process holds no lock: an evaluation, however long, makes
nobody wait. -/
theorem C138_objective_without_locks (as : List Act) (p : Nat) (h : Runs (run as) p .objective) :
    (run as p).held = [] := by
  obtain ⟨is, h⟩ := h
  have := (inv_run as).balanced p
  rw [h] at this
  exact this.1

/-- **C138.** The optimizer is asked by one process at a time. -/
theorem C138_one_asks (as : List Act) (p q : Nat) (hp : Runs (run as) p .ask)
    (hq : Runs (run as) q .ask) : p = q := by
  obtain ⟨is, hp⟩ := hp
  obtain ⟨js, hq⟩ := hq
  have I := inv_run as
  have b1 := I.balanced p
  have b2 := I.balanced q
  rw [hp] at b1
  rw [hq] at b2
  exact I.excl p q .seed (by rw [b1.1]; simp) (by rw [b2.1]; simp)

/-- **C138.** A process that is not in the middle of an operation, that an exception has just left,
or that has ended, holds no lock. -/
theorem C138_released (as : List Act) (p : Nat) :
    (¬ Busy (run as) p → (run as p).held = []) ∧
      (run (as ++ [.raise p]) p).held = [] ∧ (run (as ++ [.kill p]) p).held = [] := by
  refine ⟨fun h => (inv_run as).idle (not_not.1 h), ?_, ?_⟩ <;>
    simp [run_append, act, set_same]

/-- **C138**, if neither the optimizer nor a hook looks at the run while it is asked: a process that
waits waits for another process that is alive and in the middle of an operation, and whenever some
process is in the middle of an operation, there is one that need not wait. Missing: optimizers and
hooks that look at the run, see `C138_looking_fails`. -/
theorem C138_no_deadlock_partial (as : List Act) (hq : Quiet as) :
    (∀ p l, Waits (run as) p l → ∃ q, q ≠ p ∧ l ∈ (run as q).held ∧ (run as q).alive = true ∧
      Busy (run as) q) ∧
    ∀ p, Busy (run as) p → ∃ q, Busy (run as) q ∧ (run as q).alive = true ∧
      ∀ l, ¬ Waits (run as) q l := by
  have I := inv_run as
  have R := ranked_run as hq
  have alive : ∀ q, Busy (run as) q → (run as q).alive = true := by
    intro q hb
    by_contra h
    exact hb (I.dead q (by simpa using h)).1
  constructor
  · rintro p l ⟨⟨is, hp⟩, q, hl⟩
    have hb : Busy (run as) q := fun h => by
      rw [I.idle h] at hl
      simp at hl
    refine ⟨q, ?_, hl, alive q hb, hb⟩
    rintro rfl
    have := R q
    rw [hp] at this
    exact absurd (this.1 l hl) (lt_irrefl _)
  · intro p hp
    obtain ⟨q, h1, h2⟩ := exists_ready I R 2 p hp (fun _ _ => by omega)
    exact ⟨q, h1, alive q h1, h2⟩

/-- **C138**, under the same hypothesis: from every reachable state, after any exceptions and kills,
all operations that were begun can be finished without a timeout. A step of a process that need not
wait always brings the end nearer: the number of steps to the end does not depend on the order. -/
theorem C138_all_finish_partial (n : Nat) (as : List Act) (hq : Quiet as) (hn : Among n as) :
    ∃ bs : List Act, (∀ b ∈ bs, b.isStep = true) ∧
      bs.length = ∑ p ∈ Finset.range n, (run as p).todo.length ∧
      ∀ p, ¬ Busy (run (as ++ bs)) p := by
  obtain ⟨bs, h1, h2, h3⟩ := finish (n := n) _ (run as) (inv_run as) (ranked_run as hq)
    (idle_run n as hn) rfl
  refine ⟨bs, h1, h2, ?_⟩
  simpa [run] using h3

/-- **C138.** How often a process is let go on, it gets further by one instruction exactly if it is
busy and need not wait, and changes nobody else's work. -/
theorem C138_step (as : List Act) (p : Nat) :
    (Busy (run as) p → (∀ l, ¬ Waits (run as) p l) →
      (run (as ++ [.step p]) p).todo = (run as p).todo.tail) ∧
    (∀ l, Waits (run as) p l → run (as ++ [.step p]) = run as) ∧
    ∀ q, q ≠ p → run (as ++ [.step p]) q = run as q := by
  have I := inv_run as
  rw [run_append]
  refine ⟨fun hb hw => (step_ready I hb hw).2, ?_, ?_⟩
  · rintro l ⟨⟨is, hp⟩, q, hl⟩
    simp only [act]
    split
    · have : ¬ Free (run as) l := fun h => h q hl
      simp only [stepP, hp, if_neg this]
    · rfl
  · intro q hne
    simp only [act]
    split
    · exact stepP_other _ hne
    · rfl

/-- Two workers: worker 0 is asked for a configuration and has the locks for it; worker 1 wants to
report. -/
def two : List Act :=
  [.start 0 (.sample [("1", true)] none (some "2")), .start 1 (.report ("1", true) true),
    .step 0, .step 0, .step 1]

/-- Hypotheses of `C138_no_deadlock_partial` and `C138_all_finish_partial`; there is waiting. -/
example : Quiet two ∧ Among 2 two := by
  constructor
  · intro p op h
    simp only [two, List.mem_cons, Act.start.injEq, reduceCtorEq, List.not_mem_nil, or_false] at h
    rcases h with ⟨rfl, rfl⟩ | ⟨rfl, rfl⟩ <;> simp [Operation.quiet]
  · intro p op h
    simp only [two, List.mem_cons, Act.start.injEq, reduceCtorEq, List.not_mem_nil, or_false] at h
    rcases h with ⟨rfl, rfl⟩ | ⟨rfl, rfl⟩ <;> omega

/-- Worker 1 needs one more step to wait for the lock of worker 0. -/
example : (run (two ++ [.step 1]) 0).held = [.seed, .optState] ∧
    (run (two ++ [.step 1]) 1).todo = [.acq .optState, .rel .optState, .acq .errors,
      .rel .errors] := by
  rw [run_pair _ (by simp [two, Act.who]), pair0, pair1]
  decide

/-- Hypotheses of `C138_objective_without_locks` and `C138_one_asks`. -/
example : Runs (run [.start 1 .evaluate]) 1 .objective ∧
    Runs (run [.start 0 (.sample [] none none), .step 0, .step 0]) 0 .ask := by
  constructor
  · refine ⟨[], ?_⟩
    rw [run_pair _ (by simp [Act.who]), pair1]
    decide
  · refine ⟨[.rel .seed, .rel .optState], ?_⟩
    rw [run_pair _ (by simp [Act.who]), pair0]
    decide

/-- A hook calls `get_summary_dict` for the directory of the run. -/
def looking : List Act :=
  [.start 0 (.sample [] (some []) (some "1"))] ++ List.replicate 5 (.step 0)

/-- The process has both locks and wants one of them again. -/
theorem looking_state : run looking 0 = ⟨true,
    [.acq .seed, .rel .seed, .acq .errors, .rel .errors, .acq .optState, .rel .optState,
      .acq (.trial "1"), .rel (.trial "1"), .rel .seed, .rel .optState], [.seed, .optState]⟩ := by
  rw [run_pair _ (by simp [looking, Act.who, List.replicate]), pair0]
  decide

/-- **C138 fails for optimizers and hooks that look at the run**: a hook (or the user's own
optimizer) that calls `get_summary_dict` for the directory while it is asked for a configuration
waits for a lock of its own process. Whatever the other processes do, and however often it is let go
on, it stays there until the lock times out (120 seconds); and no other process gets a configuration
in the meantime. -/
theorem C138_looking_fails :
    Waits (run looking) 0 .seed ∧
      ∀ as : List Act, (∀ a ∈ as, a.spares 0) →
        run (looking ++ as) 0 = run looking 0 ∧
          ∀ p, ¬ (p ≠ 0 ∧ Runs (run (looking ++ as)) p .ask) := by
  have hs := looking_state
  refine ⟨⟨⟨_, by rw [hs]⟩, 0, by rw [hs]; simp⟩, ?_⟩
  intro as has
  have key : run (looking ++ as) 0 = run looking 0 := by
    induction as using List.reverseRecOn with
    | nil => simp
    | append_singleton as a ih =>
      have ih := ih fun b hb => has b (by simp [hb])
      rw [← List.append_assoc, run_append]
      have ha := has a (by simp)
      rw [hs] at ih
      cases a with
      | start q op =>
        simp only [act]
        split
        · rename_i h
          rw [set_other _ _ (fun e => by subst e; rw [ih] at h; simp at h), ih, hs]
        · rw [ih, hs]
      | step q =>
        by_cases e : q = 0
        · subst e
          have hw : Waits (run (looking ++ as)) 0 .seed :=
            ⟨⟨_, by rw [ih]⟩, 0, by rw [ih]; simp⟩
          have := (C138_step (looking ++ as) 0).2.1 .seed hw
          rw [run_append] at this
          rw [this, ih, hs]
        · have := (C138_step (looking ++ as) q).2.2 0 (Ne.symm e)
          rw [run_append] at this
          rw [this, ih, hs]
      | raise q =>
        simp only [act]
        rw [set_other _ _ (Ne.symm ha), ih, hs]
      | kill q =>
        simp only [act]
        rw [set_other _ _ (Ne.symm ha), ih, hs]
  refine ⟨key, ?_⟩
  rintro p ⟨hne, is, hp⟩
  have I := inv_run (looking ++ as)
  have b := I.balanced p
  rw [hp] at b
  exact hne (I.excl p 0 .seed (by rw [b.1]; simp) (by rw [key, hs]; simp))

/-- Worker 0 is waiting for its optimizer; worker 1 has stored a report. -/
def slow : List Act :=
  [.start 0 (.sample [] none (some "2")), .step 0, .step 0, .start 1 (.report ("1", true) true),
    .step 1, .step 1]

/-- **C138 fails for slow optimizers**: the optimizer computes while its process holds two locks, so
that every other worker that wants to report waits for it. If that takes longer than the timeout
(120 seconds), the report ends with an exception: its trial is stored, but neither the cost nor the
error is. -/
theorem C138_slow_optimizer_fails :
    Runs (run slow) 0 .ask ∧ Waits (run slow) 1 .optState ∧
      (run slow 1).todo = locked .optState ++ locked .errors ∧
      (run (slow ++ [.raise 1]) 1).todo = [] := by
  have h : run slow = pair (runPair slow).1 (runPair slow).2 :=
    run_pair _ (by simp [slow, Act.who])
  have h1 : (runPair slow).1 = ⟨true, [.work .ask, .acq (.trial "2"), .rel (.trial "2"),
      .rel .seed, .rel .optState], [.seed, .optState]⟩ := by decide
  have h2 : (runPair slow).2 = ⟨true, [.acq .optState, .rel .optState, .acq .errors,
      .rel .errors], []⟩ := by decide
  rw [run_append, h, h1, h2]
  refine ⟨⟨_, rfl⟩, ⟨⟨_, rfl⟩, 0, by simp [pair0]⟩, rfl, by simp [act, set_same]⟩

end Neps.Locks
