import Verif.Process.Lemmas

/-!
# C141: several runs in one process do not mix
-/

namespace Neps.Proc

variable {S T : Type}

/-- **C141**, the trial.  Whatever the code of the process does — runs one after the other, runs within
objectives, errors, interrupts — the trial that code called from an objective finds is the one
being evaluated there. -/
theorem C141_trial (g : Globals S T) (cells : List (Code S T)) (s : S) (t : T)
    (trial : Option T) (state : Option S)
    (h : .looked (some (s, t)) trial state ∈ (session g cells).1) : trial = some t :=
  session_sees cells g s t trial state h

/-- **C141**, the run.  As long as objectives do not call `neps.run` themselves, the state that code
called from an objective finds is the one of the run which evaluates it.  Missing: objectives which
call `neps.run`, see `C141_nested_fails`. -/
theorem C141_state_partial (g : Globals S T) (cells : List (Code S T)) (hflat : ∀ c ∈ cells, c.flat)
    (s : S) (t : T) (trial : Option T) (state : Option S)
    (h : .looked (some (s, t)) trial state ∈ (session g cells).1) : state = some s :=
  session_flat cells g hflat s t trial state h

/-- **C141**, nothing is lost.  As long as objectives return results or raise exceptions, and do not call
`neps.run` themselves, every trial stored as being evaluated is evaluated and reported, in the same
run and in the same order, and outside of evaluations no trial is found.  Missing: interrupts, invalid
results and nested runs, see `C141_interrupt_fails`, `C141_invalid_fails` and `C141_nested_fails`. -/
theorem C141_reported_partial (g : Globals S T) (hg : g.trial = none) (cells : List (Code S T))
    (hplain : ∀ c ∈ cells, c.plain) :
    starts (session g cells).1 = claims (session g cells).1 ∧
    reports (session g cells).1 = claims (session g cells).1 ∧
    (∀ trial state, .looked none trial state ∈ (session g cells).1 → trial = none) ∧
    (session g cells).2.trial = none := by
  have h := session_plain cells g hplain hg
  exact ⟨h.1.started, h.1.reported, h.1.outside, h.2⟩

/-- **C141**, notifications.  Whatever the code of the process does, every report of a trial comes right
after all callbacks registered so far are called with this trial, each once and in the order of
their registration; and before that there is nothing but the call of the objective for this trial, in
which no other objective is called, nobody is notified and nothing is reported. -/
theorem C141_notified (cells : List (Code S T)) (pre post : List (Event S T)) (s : S) (t : T)
    (h : (session {} cells).1 = pre ++ .reported s t :: post) :
    ∃ before during,
      pre = before ++ .claimed s t :: .started s t :: during ++
        (registrations [] pre).map (fun k => .notified k t) ∧
      starts during = [] ∧ reports during = [] ∧ ∀ k t', .notified k t' ∉ during := by
  obtain ⟨p, during, hq, hp⟩ := (session_heard cells ({} : Globals S T)).2.1 pre s t post h
  exact ⟨p, during, hp, hq.lists.1, hq.lists.2, fun k t' hm => (hq _ hm).2.1 k t' rfl⟩

/-- No callback is registered twice. -/
theorem registrations_nodup (events : List (Event S T)) (keys : List String) (h : keys.Nodup) :
    (registrations keys events).Nodup := by
  induction events generalizing keys with
  | nil => exact h
  | cons e events ih =>
    cases e with
    | registered key =>
      simp only [registrations]
      apply ih
      split
      · exact h
      · rename_i hk
        rw [List.nodup_append]
        exact ⟨h, by simp, by
          intro a ha b hb
          rw [List.mem_singleton] at hb
          subst hb
          rintro rfl
          exact hk ha⟩
    | _ => exact ih keys h

/-- **C141**, each callback once.  No key occurs twice among the callbacks called for a trial. -/
theorem C141_once (events : List (Event S T)) : (registrations [] events).Nodup :=
  registrations_nodup events [] (by simp)

/-- **C141**, no other notifications.  Whatever the code of the process does, every notification is
followed by nothing but other notifications for the same trial and then its report. -/
theorem C141_only_reported (cells : List (Code S T)) (pre post : List (Event S T)) (k : String) (t : T)
    (h : (session {} cells).1 = pre ++ .notified k t :: post) :
    ∃ (ks : List String) (s : S) (post' : List (Event S T)),
      post = ks.map (fun k => .notified k t) ++ .reported s t :: post' :=
  (session_heard cells ({} : Globals S T)).2.2 pre k t post h

/-- **C141** fails after an interrupt (or an invalid result): whatever the process does afterwards, no
objective is called and nothing is reported any more, and each further run that gets a trial
stores it as being evaluated and then raises. -/
theorem C141_interrupt_fails (g : Globals S T) (hg : g.trial = none) (s s' : S) (t t' : T)
    (ig ig' valid valid' : Bool) (objective objective' next next' : Code S T)
    (evals evals' : Evals S T)
    (hint : (objective.exec (some (s, t))
      { g with worker := some s, trial := some t }).2.2 = .interrupted)
    (cells : List (Code S T)) :
    let first := Code.run s ig (.cons t objective valid evals) next
    let second := Code.run s' ig' (.cons t' objective' valid' evals') next'
    starts (session g (first :: second :: cells)).1 = [(s, t)] ∧
    reports (session g (first :: second :: cells)).1 = [] ∧
    (s', t') ∈ claims (session g (first :: second :: cells)).1 := by
  intro first second
  have h1 : first.exec none g
      = (.claimed s t :: .started s t :: (objective.exec (some (s, t))
          { g with worker := some s, trial := some t }).1,
        (objective.exec (some (s, t)) { g with worker := some s, trial := some t }).2.1,
        .interrupted) := by
    simp only [first, Code.exec, Evals.exec, hg, Option.isSome_none, Bool.false_eq_true, if_false,
      hint, if_true, reduceCtorEq]
  have hs := objective.exec_some (some (s, t)) t { g with worker := some s, trial := some t } rfl
  generalize objective.exec (some (s, t)) { g with worker := some s, trial := some t } = r at *
  have h2 : second.exec none r.2.1
      = ([.claimed s' t'], { r.2.1 with worker := some s' }, .raised) := by
    simp only [second, Code.exec, Evals.exec, hs.1, Option.isSome_some, if_true, reduceCtorEq,
      if_false]
  have h3 := session_some t cells { r.2.1 with worker := some s' } hs.1
  have hsession : (session g (first :: second :: cells)).1
      = .claimed s t :: .started s t :: (r.1 ++ (.claimed s' t' ::
          (session { r.2.1 with worker := some s' } cells).1)) := by
    simp only [session, h1, h2, List.cons_append, List.nil_append]
  have hq : Quiet (r.1 ++ (.claimed s' t' ::
      (session { r.2.1 with worker := some s' } cells).1)) :=
    hs.2.append (h3.2.cons (by simp))
  rw [hsession]
  obtain ⟨a, b⟩ := hq.lists
  refine ⟨?_, ?_, ?_⟩
  · simp only [starts] at a ⊢
    simp only [List.filterMap_cons, a]
  · simp only [reports] at b ⊢
    simp only [List.filterMap_cons, b]
  · simp [claims, List.filterMap_append]

/-- **C141** fails after an invalid result: the trial is not reported, the run raises, and the slot stays
occupied, with the same consequences. -/
theorem C141_invalid_fails :
    let bad : Code String Nat := .run "a" true (.cons 1 .done false .nil) .done
    let good : Code String Nat := .run "b" true (.cons 2 .done true .nil) .done
    (session {} [bad, .look .done, good]).1
      = [.claimed "a" 1, .started "a" 1, .looked none (some 1) (some "a"), .claimed "b" 2] := by
  simp [session, Code.exec, Evals.exec]

/-- **C141** fails if an objective calls `neps.run`: the trial of the inner run is stored as being
evaluated and never reported, and the rest of the objective finds the state of the inner run. -/
theorem C141_nested_fails :
    let inner : Code String Nat := .run "inner" true (.cons 2 .done true .nil) .done
    let outer : Code String Nat :=
      .run "outer" true (.cons 1 (.attempt inner (.look .done)) true .nil) .done
    (session {} [outer]).1
      = [.claimed "outer" 1, .started "outer" 1, .claimed "inner" 2,
          .looked (some ("outer", 1)) (some 1) (some "inner"), .reported "outer" 1] := by
  simp [session, Code.exec, Evals.exec]

/-- **C141** fails after a run: the state of the last run is still found, although no run is active. -/
theorem C141_outside_fails :
    let code : Code String Nat := .run "a" true (.cons 1 .done true .nil) (.look .done)
    (session {} [code]).1
      = [.claimed "a" 1, .started "a" 1, .reported "a" 1, .looked none none (some "a")] := by
  simp [session, Code.exec, Evals.exec]

/-! ## The hypotheses are met -/

/-- Two runs, with callbacks, an objective that raises and one that fails in a `try`. -/
def demoCells : List (Code String Nat) :=
  [.register "log" (.run "a" true
      (.cons 1 (.look (.register "more" .done)) true
        (.cons 2 .raise true (.cons 3 (.attempt .raise (.look .done)) true .nil))) (.look .done)),
    .interrupt,
    .attempt (.run "b" false (.cons 1 .raise true (.cons 2 .done true .nil)) .done)
      (.run "a" false (.cons 4 (.look .done) true .nil) .done)]

example : (∀ c ∈ demoCells, c.plain) ∧ ∀ c ∈ demoCells, c.flat := by
  simp [demoCells, Code.plain, Evals.plain, Code.flat, Evals.flat, Code.noRun, Code.noInterrupt]

example : claims (session {} demoCells).1 = [("a", 1), ("a", 2), ("a", 3), ("b", 1), ("a", 4)] ∧
    .looked (some ("a", 4)) (some 4) (some "a") ∈ (session {} demoCells).1 ∧
    .notified "more" 2 ∈ (session {} demoCells).1 := by
  simp [demoCells, session, Code.exec, Evals.exec, claims, addKey]

example : ((.look .interrupt : Code String Nat).exec (some ("a", 1))
    { worker := some "a", trial := some 1 }).2.2 = .interrupted := by
  simp [Code.exec]

end Neps.Proc
