import Verif.Locks.Message
import Verif.Locks.Props

/-!
# C150: the exception of a lock that is not free in time says which lock it was
-/

namespace Neps.Locks

/-! ## Specification -/

/-- The message says that `l` was not free within `t`. -/
def Says (x : Raised) (l : Lock) (t : Option PyFloat) : Prop := ∃ c, x = .timedOut t l c

/-- The traceback shows the exception with the message for `l` and `t` as the first of NePS: it is `x`
or a cause of it, and was raised from that of `portalocker`. -/
inductive Shows : Raised → Lock → Option PyFloat → Prop
  | here (l : Lock) (t : Option PyFloat) : Shows (.timedOut t l .portalocker) l t
  | cause {x : Raised} {l : Lock} {t : Option PyFloat} (k : Lock) (s : Option PyFloat)
      (h : Shows x l t) : Shows (.timedOut s k x) l t

/-- The operation does not ask for a configuration. -/
def Operation.asksNothing : Operation → Prop
  | .sample .. => False
  | _ => True

/-! ## Lemmas -/

/-- Whenever a lock is taken, the locks held before satisfy `P`. -/
def Holds (P : List Lock → Prop) : List Lock → List Instr → Prop
  | _, [] => True
  | h, .acq l :: is => P h ∧ Holds P (l :: h) is
  | h, .rel l :: is => Holds P (h.erase l) is
  | h, .work _ :: is => Holds P h is

theorem holds_locked {P : List Lock → Prop} {h : List Lock} (hP : P h) (l : Lock) (is : List Instr) :
    Holds P h (locked l ++ is) ↔ Holds P h is := by
  simp [locked, Holds, hP]

theorem holds_getById {P : List Lock → Prop} {h : List Lock} (hP : P h) (t : String × Bool)
    (is : List Instr) : Holds P h (getById t ++ is) ↔ Holds P h is := by
  unfold getById
  split
  · simp
  · exact holds_locked hP _ _

theorem holds_newOrLoad {P : List Lock → Prop} {h : List Lock} (hP : P h) (l : Lock) (b : Bool)
    (is : List Instr) : Holds P h (newOrLoad l b ++ is) ↔ Holds P h is := by
  unfold newOrLoad
  split
  · rw [List.append_assoc, holds_locked hP, holds_locked hP]
  · exact holds_locked hP _ _

theorem holds_flatMap {α : Type} {P : List Lock → Prop} {h : List Lock} (g : α → List Instr)
    (hg : ∀ a is, Holds P h (g a ++ is) ↔ Holds P h is) (as : List α) (is : List Instr) :
    Holds P h (as.flatMap g ++ is) ↔ Holds P h is := by
  induction as with
  | nil => simp
  | cons a as ih => rw [List.flatMap_cons, List.append_assoc, hg, ih]

theorem holds_getAllTrials {P : List Lock → Prop} {h : List Lock} (hP : P h)
    (ts : List (String × Bool)) (is : List Instr) :
    Holds P h (getAllTrials ts ++ is) ↔ Holds P h is := by
  unfold getAllTrials allTrials syncAll
  rw [List.append_assoc, holds_flatMap _ (fun a is => holds_getById hP a is),
    holds_flatMap _ (fun a is => holds_locked hP _ is)]

theorem holds_loadState {P : List Lock → Prop} {h : List Lock} (hP : P h) (is : List Instr) :
    Holds P h (loadState ++ is) ↔ Holds P h is := by
  simp only [loadState, List.append_assoc, holds_locked hP]

/-- The lock of the optimizer is the outermost. -/
def Under (h : List Lock) : Prop := h = [] ∨ h.getLast? = some .optState

theorem holds_program (op : Operation) : Holds Under [] (program op) := by
  have h0 : Under [] := Or.inl rfl
  rw [← List.append_nil (program op)]
  cases op with
  | create i s e o => simp only [program, List.append_assoc, holds_newOrLoad h0, Holds]
  | readErrors => simp only [program, holds_locked h0, Holds]
  | sweep ts => simp only [program, holds_getAllTrials h0, Holds]
  | nextPending ts found =>
    simp only [program, List.append_assoc, holds_getAllTrials h0]
    rw [holds_flatMap _ (fun a is => holds_locked h0 _ is)]
    trivial
  | sample ts look new =>
    have h1 : Under [.optState] := Or.inr rfl
    have h2 : Under [.seed, .optState] := Or.inr rfl
    simp only [program, List.append_assoc, List.cons_append, List.nil_append, Holds]
    refine ⟨h0, h1, ?_⟩
    rw [holds_getAllTrials h2]
    simp only [Holds]
    have key : ∀ is, Holds Under [.seed, .optState] is →
        Holds Under [.seed, .optState] ((match look with
          | some ts => loadState ++ getAllTrials ts | none => []) ++ is) := by
      intro is his
      cases look with
      | none => exact his
      | some us => rw [List.append_assoc, holds_loadState h2, holds_getAllTrials h2]; exact his
    apply key
    cases new with
    | none => simp [Holds]
    | some id => rw [holds_locked h2]; simp [Holds]
  | putUpdated t => simp only [program, List.append_assoc, holds_getById h0, holds_locked h0, Holds]
  | evaluate => simp [program, Holds]
  | report t err =>
    simp only [program, List.append_assoc, holds_getById h0, holds_locked h0]
    cases err
    · simp [Holds]
    · simp only [if_true, holds_locked h0, Holds]
  | getTrial t => simp only [program, List.append_assoc, holds_getById h0, holds_locked h0, Holds]
  | status ts =>
    simp only [program, List.append_assoc, holds_loadState h0, holds_getAllTrials h0, Holds]
  | csv ts =>
    simp only [program, List.append_assoc, holds_loadState h0, holds_getAllTrials h0,
      holds_locked h0, Holds]

/-- No lock is held. -/
def NoneHeld (h : List Lock) : Prop := h = []

theorem holds_program_flat (op : Operation) (ho : op.asksNothing) :
    Holds NoneHeld [] (program op) := by
  have h0 : NoneHeld [] := rfl
  rw [← List.append_nil (program op)]
  cases op with
  | create i s e o => simp only [program, List.append_assoc, holds_newOrLoad h0, Holds]
  | readErrors => simp only [program, holds_locked h0, Holds]
  | sweep ts => simp only [program, holds_getAllTrials h0, Holds]
  | nextPending ts found =>
    simp only [program, List.append_assoc, holds_getAllTrials h0]
    rw [holds_flatMap _ (fun a is => holds_locked h0 _ is)]
    trivial
  | sample ts look new => exact ho.elim
  | putUpdated t => simp only [program, List.append_assoc, holds_getById h0, holds_locked h0, Holds]
  | evaluate => simp [program, Holds]
  | report t err =>
    simp only [program, List.append_assoc, holds_getById h0, holds_locked h0]
    cases err
    · simp [Holds]
    · simp only [if_true, holds_locked h0, Holds]
  | getTrial t => simp only [program, List.append_assoc, holds_getById h0, holds_locked h0, Holds]
  | status ts =>
    simp only [program, List.append_assoc, holds_loadState h0, holds_getAllTrials h0, Holds]
  | csv ts =>
    simp only [program, List.append_assoc, holds_loadState h0, holds_getAllTrials h0,
      holds_locked h0, Holds]

theorem holds_run (P : List Lock → Prop) (p : Nat) (as : List Act)
    (h : ∀ op, Act.start p op ∈ as → Holds P [] (program op)) :
    Holds P (run as p).held (run as p).todo := by
  induction as using List.reverseRecOn with
  | nil => simp [run, Holds]
  | append_singleton as a ih =>
    have I := inv_run as
    have ih := ih fun op ho => h op (by simp [ho])
    rw [run_append]
    by_cases hw : a.who = p
    swap
    · have : act (run as) a p = run as p := by
        cases a with
        | start q op =>
          simp only [act]
          split
          · exact set_other _ _ (Ne.symm hw)
          · rfl
        | step q =>
          simp only [act]
          split
          · exact stepP_other _ (Ne.symm hw)
          · rfl
        | raise q => exact set_other _ _ (Ne.symm hw)
        | kill q => exact set_other _ _ (Ne.symm hw)
      rw [this]; exact ih
    · cases a with
      | start q op =>
        obtain rfl : q = p := hw
        simp only [act]
        split
        · rename_i hc
          rw [set_same, I.idle hc.2]
          exact h op (by simp)
        · exact ih
      | step q =>
        obtain rfl : q = p := hw
        simp only [act]
        split
        · cases ht : (run as q).todo with
          | nil => simp only [stepP, ht, Holds]
          | cons i is =>
            rw [ht] at ih
            cases i with
            | acq l =>
              simp only [stepP, ht]
              split
              · rw [set_same]; exact ih.2
              · rw [ht]; exact ih
            | rel l => simp only [stepP, ht]; rw [set_same]; exact ih
            | work w => simp only [stepP, ht]; rw [set_same]; exact ih
        · exact ih
      | raise q =>
        obtain rfl : q = p := hw
        simp only [act]
        rw [set_same]
        trivial
      | kill q =>
        obtain rfl : q = p := hw
        simp only [act]
        rw [set_same]
        trivial

theorem shows_leaveAll (T : Resource → Option PyFloat) (held : List Lock) (x : Raised) (l : Lock)
    (t : Option PyFloat) (h : Shows x l t) : Shows (leaveAll T held x) l t := by
  induction held generalizing x with
  | nil => exact h
  | cons k held ih =>
    refine ih _ ?_
    unfold leave
    split
    · exact h
    · split
      · exact .cause _ _ h
      · exact h

/-! ## Properties -/

/-- **C150** (what can be relied on): whichever locks a process has and whichever lock it gives up
waiting for, the traceback shows which one it was and how long it waited, at the exception that was
raised first. -/
theorem C150_traceback (T : Resource → Option PyFloat) (as : List Act) (p : Nat) (l : Lock)
    (_hw : Waits (run as) p l) (hl : l ≠ .csv) :
    Shows (giveUp T (run as p).held l) l (l.timeout T) := by
  apply shows_leaveAll
  simp only [leave, if_neg hl, Raised.isLockException, if_true]
  exact .here _ _

/-- **C150** (partial: processes that ask for no configuration): the message says which lock was not
free and how long the process waited. -/
theorem C150_message_partial (T : Resource → Option PyFloat) (as : List Act) (p : Nat) (l : Lock)
    (hw : Waits (run as) p l) (hl : l ≠ .csv)
    (ho : ∀ op, Act.start p op ∈ as → op.asksNothing) :
    Says (giveUp T (run as p).held l) l (l.timeout T) := by
  obtain ⟨⟨is, ht⟩, -⟩ := hw
  have h := holds_run NoneHeld p as fun op hop => holds_program_flat op (ho op hop)
  rw [ht] at h
  have h0 : (run as p).held = [] := h.1
  rw [h0]
  simp only [giveUp, leaveAll, leave, if_neg hl, Raised.isLockException, if_true, List.foldl_nil]
  exact ⟨_, rfl⟩

/-- **C150**: what the message says in general. A process that has no other lock names the one it
waited for; one that has another names that of the state of the optimizer, and the timeout for it,
whatever it waited for. -/
theorem C150_message (T : Resource → Option PyFloat) (as : List Act) (p : Nat) (l : Lock)
    (hw : Waits (run as) p l) (hl : l ≠ .csv) :
    ((run as p).held = [] → Says (giveUp T (run as p).held l) l (l.timeout T)) ∧
    ((run as p).held ≠ [] → Says (giveUp T (run as p).held l) .optState (T .optState)) := by
  obtain ⟨⟨is, ht⟩, -⟩ := hw
  have h := holds_run Under p as fun op _ => holds_program op
  rw [ht] at h
  have hu := h.1
  generalize (run as p).held = held at hu
  constructor
  · rintro rfl
    simp only [giveUp, leaveAll, leave, if_neg hl, Raised.isLockException, if_true, List.foldl_nil]
    exact ⟨_, rfl⟩
  · intro hne
    rcases hu with rfl | hu
    · exact absurd rfl hne
    · obtain ⟨pre, rfl⟩ := List.getLast?_eq_some_iff.mp hu
      have hs := shows_leaveAll T pre (leave T .portalocker l) l (l.timeout T) (by
        simp only [leave, if_neg hl, Raised.isLockException, if_true]
        exact .here _ _)
      simp only [giveUp, leaveAll, List.foldl_append, List.foldl_cons, List.foldl_nil] at hs ⊢
      have : (List.foldl (leave T) (leave T .portalocker l) pre).isLockException = true := by
        generalize List.foldl (leave T) (leave T .portalocker l) pre = x at hs
        cases hs <;> rfl
      rw [leave, if_neg (by simp), if_pos this]
      exact ⟨_, rfl⟩

/-- **C150**: an exception that is none of a lock, for example one of the optimizer, arrives as it
was. -/
theorem C150_other (T : Resource → Option PyFloat) (held : List Lock) (tag : Nat) :
    leaveAll T held (.other tag) = .other tag := by
  induction held with
  | nil => rfl
  | cons l held ih =>
    have : leave T (.other tag) l = .other tag := by
      unfold leave
      split
      · rfl
      · simp [Raised.isLockException]
    simpa [leaveAll, List.foldl_cons, this] using ih

/-- Process 1 reads trial `"1"`; process 0, which samples, waits for it. -/
def readingTrial : List Act :=
  [.start 1 (.sweep [("1", true)]), .step 1,
    .start 0 (.sample [("1", true)] none (some "2")), .step 0, .step 0]

theorem readingTrial_waits : Waits (run readingTrial) 0 (.trial "1") ∧
    (run readingTrial 0).held = [.seed, .optState] := by
  have hp : run readingTrial = pair
      ⟨true, (program (.sample [("1", true)] none (some "2"))).drop 2, [.seed, .optState]⟩
      ⟨true, [.rel (.trial "1")], [.trial "1"]⟩ := by
    rw [run_pair _ (by simp [readingTrial, Act.who])]
    have : runPair readingTrial =
      (⟨true, (program (.sample [("1", true)] none (some "2"))).drop 2, [.seed, .optState]⟩,
        ⟨true, [.rel (.trial "1")], [.trial "1"]⟩) := by decide
    rw [this]
  rw [hp]
  refine ⟨⟨⟨_, rfl⟩, 1, ?_⟩, rfl⟩
  rw [pair1]; simp

/-- **C150 fails for a worker that asks for a configuration**: it has the locks of the optimizer and
of the seed while it reads the trials. If the lock of a trial is not free in time, the message says
that the lock of the state of the optimizer was not, "most likely" because a process crashed while
holding it, although the worker has that lock itself; with the timeout of another variable. -/
theorem C150_wrong_lock_fails (T : Resource → Option PyFloat) :
    Waits (run readingTrial) 0 (.trial "1") ∧
    Says (giveUp T (run readingTrial 0).held (.trial "1")) .optState (T .optState) ∧
    ∀ t, ¬ Says (giveUp T (run readingTrial 0).held (.trial "1")) (.trial "1") t := by
  obtain ⟨h1, h2⟩ := readingTrial_waits
  have h3 := (C150_message T readingTrial 0 (.trial "1") h1 (by simp)).2 (by rw [h2]; simp)
  refine ⟨h1, h3, ?_⟩
  rintro t ⟨c, hc⟩
  obtain ⟨d, hd⟩ := h3
  rw [hd] at hc
  simp at hc

/-- **C150 fails for optimizers with locks of their own**: a `LockException` of the optimizer, for
example of its database, becomes one about the locks of NePS, which it has. -/
theorem C150_own_lock_fails (T : Resource → Option PyFloat) :
    (∀ as p, Runs (run as) p .ask →
      Says (leaveAll T (run as p).held .portalocker) .optState (T .optState)) ∧
    Runs (run [.start 0 (.sample [] none none), .step 0, .step 0]) 0 .ask := by
  constructor
  · rintro as p ⟨is, h⟩
    have hb := (inv_run as).balanced p
    rw [h] at hb
    rw [hb.1]
    refine ⟨.timedOut (T .seed) .seed .portalocker, ?_⟩
    simp [leaveAll, leave, Raised.isLockException, Lock.timeout]
  · refine ⟨[.rel .seed, .rel .optState], ?_⟩
    rw [run_pair _ (by simp [Act.who]), pair0]
    decide

/-- Hypotheses of `C150_message_partial`: worker 1 waits with its report. -/
example : Waits (run (two ++ [.step 1])) 1 .optState ∧
    ∀ op, Act.start 1 op ∈ two ++ [.step 1] → op.asksNothing := by
  constructor
  · refine ⟨⟨[.rel .optState, .acq .errors, .rel .errors], ?_⟩, 0, ?_⟩
    · rw [run_pair _ (by simp [two, Act.who]), pair1]
      decide
    · rw [run_pair _ (by simp [two, Act.who]), pair0]
      decide
  · intro op h
    simp only [two, List.cons_append, List.nil_append, List.mem_cons, Act.start.injEq, reduceCtorEq,
      List.not_mem_nil, or_false] at h
    rcases h with ⟨h, -⟩ | ⟨-, rfl⟩
    · cases h
    · trivial

end Neps.Locks
