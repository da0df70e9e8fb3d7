import Verif.Run.Books
import Verif.Trial.Props
import Verif.Run.Witness

/-!
# Error policy, order of pending trials, recorded exceptions, the trial in progress
-/

namespace Neps.Run

open Neps.Store (Disk Handle)

/-! ## C15 Error policy -/

/-- The halt is a reaction to an error (own or shared). -/
def Halt.isError : Halt → Bool
  | .stopOwnError | .raiseOwnError | .stopSharedError | .raiseSharedError _ => true
  | _ => false

/-- The halt is one of the limits of this worker alone. -/
def Halt.isWorkerLimit : Halt → Bool
  | .evalsWorker | .costWorker | .wallclock | .evalTimeWorker => true
  | _ => false

/-- `ignore_errors=True`: whatever errors there are, the check goes on or names a limit, and its
answer does not depend on the errors. -/
theorem C15_ignore (s : Settings) (hs : s.onError = .ignore) (err : Option Exc) (count : Nat)
    (cost wall evalTime : PyFloat) (errs : List ErrEntry) (trials : List Trial) :
    (∀ h, checkStop s err count cost wall evalTime errs trials = some h → h.isError = false) ∧
    checkStop s err count cost wall evalTime errs trials =
      checkStop s none count cost wall evalTime [] trials := by
  have hl : localCheck s err count cost wall evalTime = localCheck s none count cost wall evalTime := by
    unfold localCheck
    cases err <;> simp [hs]
  have hse : ∀ l, sharedErrCheck s l = none := by intro l; simp [sharedErrCheck, hs]
  constructor
  · intro h hh
    unfold checkStop at hh
    rw [hl, hse] at hh
    unfold localCheck at hh
    simp only at hh
    split at hh
    · next h' e =>
      cases hh
      revert e
      split_ifs <;> simp <;> rintro rfl <;> rfl
    · split at hh
      · unfold globalCheck at hh
        split_ifs at hh <;> cases hh <;> rfl
      · simp at hh
  · unfold checkStop
    rw [hl, hse, hse]

/-- `ignore_errors=True`, in a run: no worker with this setting ever ends because of an error, its
own or another one's. -/
theorem C15_ignore_run (fs : String → Option PyFloat) (st : Nat → Settings) (as : List Act)
    (w : Nat) (hs : (st w).onError = .ignore) :
    ((run fs st {} as).worker w).pc ≠ .raised .workerRaise ∧
    ∀ h, ((run fs st {} as).worker w).pc = .stopped h → h.isError = false := by
  have key : ∀ s : Settings, s.onError = .ignore → ∀ (e : Option Exc) n a b c h,
      localCheck s e n a b c = some h → h.isError = false ∧ h.raises = false := by
    intro s hs e n a b c h hh
    unfold localCheck at hh
    cases e <;> simp only [hs] at hh <;> split_ifs at hh <;> cases hh <;> exact ⟨rfl, rfl⟩
  refine run_induction fs st
    (P := fun W => (W.worker w).pc ≠ .raised .workerRaise ∧
      ∀ h, (W.worker w).pc = .stopped h → h.isError = false) ?_ ?_ as
  · intro W v W' I t
    cases t with
    | idle => exact I
    | kill =>
      by_cases e : w = v
      · subst e; simpa using I
      · simpa [e] using I
    | torn s loc a n =>
      by_cases e : w = v
      · subst e; simpa using I
      · simpa [e] using I
    | step c _ hal s =>
      by_cases e : w = v
      · subst e
        cases s with
        | idle => exact I
        | move pc' m =>
          simp only [goto_worker, if_true]
          generalize hpc : (W.worker w).pc = pc at m
          cases m <;> simp
          case haltTop wall h h1 h2 => exact (key _ hs _ _ _ _ _ _ h1).1
          case raiseTop wall h h1 h2 => rw [(key _ hs _ _ _ _ _ _ h1).2] at h2; cases h2
          case haltErr h h1 h2 => simp [sharedErrCheck, hs] at h1
          case raiseErr h h1 h2 => simp [sharedErrCheck, hs] at h1
          case sweepHalt seen h h1 =>
            unfold globalCheck at h1
            split_ifs at h1 <;> cases h1 <;> rfl
        | claimLost id h pc' n _ _ hp =>
          rcases hp with ⟨rfl, _⟩ | rfl | rfl <;> simp
        | budget t r pc' _ hp =>
          rcases hp with ⟨rfl, _⟩ | ⟨e, _, rfl⟩ <;> simp
        | _ => simp
      · have := (Trans.other (Trans.step (fs := fs) (st := st) c W' hal s) e)
        rw [this]; exact I
  · exact ⟨by simp, by simp⟩

/-- `ignore_errors=False` (the setting `_launch_runtime` then uses): an error of this worker always
makes the check raise; an error recorded by any worker makes it raise unless one of this worker's own
limits is reached, in which case it stops; without any error it never reports one. -/
theorem C15_raise_any (s : Settings) (hs : s.onError = .raiseAny) (err : Option Exc) (count : Nat)
    (cost wall evalTime : PyFloat) (errs : List ErrEntry) (trials : List Trial) :
    (err ≠ none → checkStop s err count cost wall evalTime errs trials = some .raiseOwnError) ∧
    (errs ≠ [] → ∃ h, checkStop s err count cost wall evalTime errs trials = some h ∧
      (h.raises = true ∨ h.isWorkerLimit = true)) ∧
    (err = none → errs = [] → ∀ h, checkStop s err count cost wall evalTime errs trials = some h →
      h.isError = false) := by
  refine ⟨?_, ?_, ?_⟩
  · intro h
    obtain ⟨e, rfl⟩ := Option.ne_none_iff_exists'.mp h
    simp [checkStop, localCheck, hs]
  · intro h
    obtain ⟨e, he⟩ : ∃ e, latestErr errs = some e := by
      unfold latestErr
      rw [List.getLast?_eq_some_getLast h]
      exact ⟨_, rfl⟩
    have hl : ∀ h, localCheck s err count cost wall evalTime = some h →
        (h.raises = true ∨ h.isWorkerLimit = true) := by
      intro h hh
      unfold localCheck at hh
      cases err with
      | some e => simp only [hs] at hh; cases hh; exact Or.inl rfl
      | none =>
        simp only at hh
        split_ifs at hh <;> cases hh <;> exact Or.inr rfl
    unfold checkStop
    cases hc : localCheck s err count cost wall evalTime with
    | some h => exact ⟨h, rfl, hl h hc⟩
    | none =>
      refine ⟨.raiseSharedError e, ?_, Or.inl rfl⟩
      simp [sharedErrCheck, hs, he]
  · rintro rfl rfl h hh
    unfold checkStop localCheck sharedErrCheck at hh
    simp only [hs, latestErr, List.getLast?_nil] at hh
    split at hh
    · next h' e =>
      cases hh
      revert e
      split_ifs <;> simp <;> rintro rfl <;> rfl
    · split at hh
      · unfold globalCheck at hh
        split_ifs at hh <;> cases hh <;> rfl
      · simp at hh

/-- The `STOP_*` policies never raise, the `RAISE_*` policies never stop because of an error. -/
theorem C15_stop_returns (s : Settings) (err : Option Exc) (count : Nat)
    (cost wall evalTime : PyFloat) (errs : List ErrEntry) (trials : List Trial) (h : Halt)
    (hh : checkStop s err count cost wall evalTime errs trials = some h) (herr : h.isError = true) :
    h.raises = (s.onError == .raiseWorker || s.onError == .raiseAny) := by
  have hg : ∀ h, globalCheck s trials = some h → h.isError = false := by
    intro h hg
    unfold globalCheck at hg
    split_ifs at hg <;> cases hg <;> rfl
  unfold checkStop at hh
  split at hh
  · next h' e =>
    cases hh
    unfold localCheck at e
    cases err with
    | none =>
      simp only at e
      split_ifs at e <;> cases e <;> simp [Halt.isError] at herr
    | some x =>
      cases ho : s.onError <;> simp only [ho] at e
      · cases e; rfl
      · cases e; rfl
      · cases e; rfl
      · cases e; rfl
      · split_ifs at e <;> cases e <;> simp [Halt.isError] at herr
  · split at hh
    · next h' e =>
      cases hh
      unfold sharedErrCheck at e
      cases ho : s.onError <;> simp only [ho] at e <;> try cases e
      · split at e <;> cases e; rfl
      · split at e <;> cases e; rfl
    · split at hh
      · rw [hg h hh] at herr; cases herr
      · cases hh

/-- The `*_WORKER_*` policies do not look at the shared error log. -/
theorem C15_worker_policies (s : Settings) (hs : s.onError = .raiseWorker ∨ s.onError = .stopWorker)
    (err : Option Exc) (count : Nat) (cost wall evalTime : PyFloat) (errs errs' : List ErrEntry)
    (trials : List Trial) :
    checkStop s err count cost wall evalTime errs trials =
      checkStop s err count cost wall evalTime errs' trials := by
  have : ∀ l, sharedErrCheck s l = none := by
    intro l
    rcases hs with h | h <;> simp [sharedErrCheck, h]
  simp [checkStop, this]

/-- What `neps.run(ignore_errors=...)` selects. -/
theorem C15_launch (ignoreErrors : Bool) (l c : Option PyFloat) (k : Bool) (mc : Option PyFloat)
    (mt mw : Option Nat) :
    (launchSettings ignoreErrors l c k mc mt mw).onError =
      bif ignoreErrors then .ignore else .raiseAny := by
  cases ignoreErrors <;> rfl

/-- The shared error log only grows. -/
theorem errs_mono (fs : String → Option PyFloat) (st : Nat → Settings) (W : World) (as : List Act) :
    W.errs <+: (run fs st W as).errs := by
  refine run_induction fs st (P := fun W' => W.errs <+: W'.errs) ?_ (List.prefix_refl _) as
  intro W₁ w W₂ I t
  refine I.trans ?_
  cases t with
  | step c _ hal s => cases s <;> simp
  | _ => simp

theorem run_other (fs : String → Option PyFloat) (st : Nat → Settings) (w : Nat) (as : List Act)
    (h : OnlyBy (· ≠ w) as) (W : World) : (run fs st W as).worker w = W.worker w := by
  induction as generalizing W with
  | nil => rfl
  | cons a as ih =>
    rw [run_cons, ih (fun b hb => h b (by simp [hb]))]
    exact (act_trans fs st W a).other (Ne.symm (h a (by simp)))

/-- `ignore_errors=False`, in a run: a worker that starts its check when the shared log is not empty
does not get to another trial: after its next two steps, whatever the other workers do in between,
it has raised or it has stopped because of its own limits. -/
theorem C15_raise_any_run (fs : String → Option PyFloat) (st : Nat → Settings) (W : World)
    (w : Nat) (hs : (st w).onError = .raiseAny) (hal : (W.worker w).alive = true)
    (hpc : (W.worker w).pc = .top) (herr : W.errs ≠ []) (c c' : Choice) (others : List Act)
    (ho : OnlyBy (· ≠ w) others) :
    let W' := run fs st W (.step w c :: others ++ [.step w c'])
    (W'.worker w).pc = .raised .workerRaise ∨
    ∃ h, (W'.worker w).pc = .stopped h ∧ h.isWorkerLimit = true := by
  intro W'
  have hW' : W' = act fs st (run fs st (act fs st W (.step w c)) others) (.step w c') := by
    simp only [W', run_cons, run_append]
    rfl
  rw [hW']
  set W₁ := act fs st W (.step w c) with hW₁
  set W₂ := run fs st W₁ others with hW₂
  have h2 : W₂.worker w = W₁.worker w := run_other fs st w others ho W₁
  have herr1 : W₁.errs ≠ [] := by
    intro e
    have := errs_mono fs st W [.step w c]
    simp only [run, List.foldl_cons, List.foldl_nil, ← hW₁, e, List.prefix_nil] at this
    exact herr this
  have herr2 : W₂.errs ≠ [] := by
    intro e
    have := errs_mono fs st W₁ others
    rw [← hW₂, e, List.prefix_nil] at this
    exact herr1 this
  have hre : (st w).readsErrors = true := by simp [Settings.readsErrors, hs]
  have hstep1 : W₁ = stepW fs (st w) W w c := by rw [hW₁]; simp [act, hal]
  simp only [act, h2]
  simp only [stepW, hpc] at hstep1
  cases hl : localCheck (st w) (W.worker w).err (W.worker w).count (W.worker w).cost c.wall
      (W.worker w).evalTime with
  | some h =>
    rw [hl] at hstep1
    simp only at hstep1
    cases hr : h.raises with
    | true =>
      rw [hr] at hstep1
      simp only [if_true] at hstep1
      have e1 : (W₁.worker w).pc = .raised .workerRaise := by rw [hstep1]; simp
      have e2 : (W₂.worker w).pc = .raised .workerRaise := by rw [h2, e1]
      left
      split
      · simp only [stepW, e2]
      · exact e2
    | false =>
      rw [hr] at hstep1
      simp only [Bool.false_eq_true, if_false] at hstep1
      have e1 : (W₁.worker w).pc = .stopped h := by rw [hstep1]; simp
      have e2 : (W₂.worker w).pc = .stopped h := by rw [h2, e1]
      right
      refine ⟨h, ?_, ?_⟩
      · split
        · simp only [stepW, e2]
        · exact e2
      · unfold localCheck at hl
        cases he : (W.worker w).err with
        | some e => rw [he] at hl; simp only [hs] at hl; cases hl; cases hr
        | none =>
          rw [he] at hl
          simp only at hl
          split_ifs at hl <;> cases hl <;> rfl
  | none =>
    rw [hl] at hstep1
    simp only [hre, if_true] at hstep1
    have e1 : (W₁.worker w).pc = .readErrors := by rw [hstep1]; simp
    have a1 : (W₁.worker w).alive = true := by rw [hstep1]; simpa using hal
    have e2 : (W₂.worker w).pc = .readErrors := by rw [h2, e1]
    left
    obtain ⟨e, he⟩ : ∃ e, latestErr W₂.errs = some e := by
      unfold latestErr
      rw [List.getLast?_eq_some_getLast herr2]
      exact ⟨_, rfl⟩
    simp [a1, stepW, e2, sharedErrCheck, hs, he, Halt.raises]

/-- Met: worker 0's first trial failed, worker 1 is at the top of its loop. -/
example :
    let st : Nat → Settings := fun _ => launchSettings false none none false none none none
    let W := run noFloat st {} (go 0 11 (failing "1"))
    W.errs ≠ [] ∧ (st 1).onError = .raiseAny ∧ (W.worker 1).alive = true ∧ (W.worker 1).pc = .top ∧
    (W.worker 0).pc = .raised .workerRaise := by decide +kernel

/-! ## C09 Pending trials are handed out oldest first -/

/-- The pending trials a scan in the given order finds, with their sampling times. -/
def pendingIn (W : World) (order : List String) : List (String × PyFloat) :=
  order.filterMap fun id =>
    match W.stored id with
    | some t => if t.state = .pending then some (id, t.metadata.timeSampled) else none
    | none => none

theorem mem_pendingIn {W : World} {order : List String} {p : String × PyFloat} :
    p ∈ pendingIn W order ↔ p.1 ∈ order ∧ ∃ t, W.stored p.1 = some t ∧ t.state = .pending ∧
      t.metadata.timeSampled = p.2 := by
  unfold pendingIn
  rw [List.mem_filterMap]
  constructor
  · rintro ⟨id, hid, h⟩
    split at h
    · next t ht =>
      split at h
      · next hp =>
        cases h
        exact ⟨hid, t, ht, hp, rfl⟩
      · cases h
    · cases h
  · rintro ⟨hid, t, ht, hp, e⟩
    refine ⟨p.1, hid, ?_⟩
    rw [ht]
    simp [hp, e]

/-- Comparing sampling times is a total preorder as long as none is NaN. -/
theorem lt_trans_false {a b c : PyFloat} (hb : b ≠ .nan) (h1 : PyFloat.lt b a = false)
    (h2 : PyFloat.lt c b = false) : PyFloat.lt c a = false := by
  cases a <;> cases b <;> cases c <;> simp_all [PyFloat.lt]
  next p q r => exact le_trans h1 h2

theorem lt_total_false (a b : PyFloat) : PyFloat.lt b a = false ∨ PyFloat.lt a b = false := by
  cases a <;> cases b <;> simp [PyFloat.lt]
  next p q => exact le_total _ _

theorem orderedInsert_sorted (x : String × PyFloat) (l : List (String × PyFloat))
    (hx : x.2 ≠ .nan) (hl : ∀ p ∈ l, p.2 ≠ .nan)
    (h : l.Pairwise (fun a b => PyFloat.lt b.2 a.2 = false)) :
    (l.orderedInsert (fun a b : String × PyFloat => (PyFloat.lt b.2 a.2) = false) x).Pairwise
      (fun a b => PyFloat.lt b.2 a.2 = false) := by
  induction l with
  | nil => simp
  | cons y l ih =>
    rw [List.pairwise_cons] at h
    simp only [List.orderedInsert]
    split
    · next hxy =>
      refine List.pairwise_cons.mpr ⟨?_, List.pairwise_cons.mpr h⟩
      intro z hz
      rcases List.mem_cons.mp hz with rfl | hz
      · exact hxy
      · exact lt_trans_false (hl y (by simp)) hxy (h.1 z hz)
    · next hxy =>
      refine List.pairwise_cons.mpr ⟨?_, ih (fun p hp => hl p (by simp [hp])) h.2⟩
      intro z hz
      rw [List.mem_orderedInsert] at hz
      rcases hz with rfl | hz
      · exact (lt_total_false _ _).resolve_left hxy
      · exact h.1 z hz

theorem sortByTime_sorted (l : List (String × PyFloat)) (hl : ∀ p ∈ l, p.2 ≠ .nan) :
    (sortByTime l).Pairwise (fun a b => PyFloat.lt b.2 a.2 = false) := by
  unfold sortByTime
  induction l with
  | nil => simp
  | cons x l ih =>
    simp only [List.insertionSort_cons]
    apply orderedInsert_sorted _ _ (hl x (by simp)) _ (ih (fun p hp => hl p (by simp [hp])))
    intro p hp
    exact hl p (by simp [(List.mem_insertionSort _).mp hp])

theorem sortByTime_perm (l : List (String × PyFloat)) : (sortByTime l).Perm l :=
  List.perm_insertionSort _ l

/-- `get_next_pending_trial(n)`, `neps/state/neps_state.py:210-214`, when nobody interferes: the
first `n` of `pending()` (`neps/state/filebased.py:203-210`). -/
def nextPending (W : World) (order : List String) (n : Nat) : List (String × PyFloat) :=
  (sortByTime (pendingIn W order)).take n

/-- `get_next_pending_trial(n)` returns the oldest pending trials in order, for every listing order:
`min n` (number of pending trials) of them, each pending, sorted by sampling time, none missing that
is older than a returned one. Sampling times are clock readings, hence not NaN. -/
theorem C09_n_oldest (W : World) (order : List String) (n : Nat) (hnd : W.ids.Nodup)
    (hord : order.Perm W.ids)
    (hnan : ∀ id ∈ W.ids, ∀ t, W.stored id = some t → t.metadata.timeSampled ≠ .nan) :
    let out := nextPending W order n
    (out.map (·.1)).Nodup ∧
    out.length = min n (W.trials.countP (fun t => t.state == .pending)) ∧
    (∀ p ∈ out, p.1 ∈ W.ids ∧ ∃ t, W.stored p.1 = some t ∧ t.state = .pending ∧
      t.metadata.timeSampled = p.2) ∧
    out.Pairwise (fun a b => PyFloat.lt b.2 a.2 = false) ∧
    (∀ id ∈ W.ids, ∀ t, W.stored id = some t → t.state = .pending →
      (id, t.metadata.timeSampled) ∉ out →
      ∀ p ∈ out, PyFloat.lt t.metadata.timeSampled p.2 = false) := by
  intro out
  have hmem : ∀ p ∈ pendingIn W order, p.1 ∈ W.ids ∧ ∃ t, W.stored p.1 = some t ∧
      t.state = .pending ∧ t.metadata.timeSampled = p.2 := by
    intro p hp
    obtain ⟨h1, h2⟩ := mem_pendingIn.mp hp
    exact ⟨hord.mem_iff.mp h1, h2⟩
  have hsorted := sortByTime_sorted (pendingIn W order) (by
    intro p hp
    obtain ⟨h1, t, h2, _, h4⟩ := hmem p hp
    rw [← h4]
    exact hnan _ h1 t h2)
  have hfst : (pendingIn W order).map (·.1) = order.filter (fun id =>
      match W.stored id with | some t => t.state = .pending | none => false) := by
    unfold pendingIn
    rw [List.map_filterMap, ← List.filterMap_eq_filter]
    apply List.filterMap_congr
    intro id _
    cases hst : W.stored id with
    | none => simp [hst, Option.guard]
    | some t => by_cases h : t.state = .pending <;> simp [hst, h, Option.guard]
  have hlen : (pendingIn W order).length = W.trials.countP (fun t => t.state == .pending) := by
    rw [← List.length_map (f := (·.1)), hfst, ← List.countP_eq_length_filter, hord.countP_eq]
    unfold World.trials
    rw [List.countP_filterMap]
    apply List.countP_congr
    intro id _
    cases W.stored id <;> simp
  refine ⟨?_, ?_, ?_, ?_, ?_⟩
  · have : ((pendingIn W order).map (·.1)).Nodup := by
      rw [hfst]
      exact (hord.nodup_iff.mpr hnd).filter _
    have h2 : ((sortByTime (pendingIn W order)).map (·.1)).Nodup :=
      ((sortByTime_perm _).map _).nodup_iff.mpr this
    exact ((List.take_sublist n _).map _).nodup h2
  · simp only [out, nextPending, List.length_take, (sortByTime_perm _).length_eq, hlen]
  · intro p hp
    exact hmem p ((sortByTime_perm _).mem_iff.mp (List.mem_of_mem_take hp))
  · exact hsorted.sublist (List.take_sublist n _)
  · intro id hid t ht hp hnot p hpo
    have hin : (id, t.metadata.timeSampled) ∈ sortByTime (pendingIn W order) :=
      (sortByTime_perm _).mem_iff.mpr (mem_pendingIn.mpr ⟨hord.mem_iff.mpr hid, t, ht, hp, rfl⟩)
    rw [← List.take_append_drop n (sortByTime (pendingIn W order))] at hin hsorted
    rcases List.mem_append.mp hin with h | h
    · exact absurd h hnot
    · exact (List.pairwise_append.mp hsorted).2.2 p hpo _ h

/-- The worker's scan, step by step: a live worker at the start of `get_next_pending_trial` that is
not interrupted (all directories being readable) arrives at a pending trial than which no pending
trial is older; it goes on to sample a new trial if and only if there is no pending one. -/
theorem C09_worker_takes_oldest (fs : String → Option PyFloat) (st : Nat → Settings) (W : World)
    (w : Nat) (c : Choice) (hal : (W.worker w).alive = true)
    (hpc : (W.worker w).pc = .pendList) (hread : ∀ id ∈ W.ids, (W.stored id).isSome)
    (hnan : ∀ id ∈ W.ids, ∀ t, W.stored id = some t → t.metadata.timeSampled ≠ .nan) :
    let W' := run fs st W (List.replicate (W.ids.length + 2) (.step w c))
    (W'.disk = W.disk ∧ W'.ids = W.ids) ∧
    (((W'.worker w).pc = .sample ∧ ∀ t ∈ W.trials, t.state ≠ .pending) ∨
     ∃ id t, (W'.worker w).pc = .fetch id ∧ W.stored id = some t ∧ t.state = .pending ∧ id ∈ W.ids ∧
      ∀ t' ∈ W.trials, t'.state = .pending →
        PyFloat.lt t'.metadata.timeSampled t.metadata.timeSampled = false) := by
  intro W'
  -- the loop
  have loop : ∀ (todo : List String) (found : List (String × PyFloat)) (V : World),
      V.disk = W.disk → V.ids = W.ids → (V.worker w).alive = true →
      (V.worker w).pc = .pend todo found → (∀ id ∈ todo, (W.stored id).isSome) →
      let V' := run fs st V (List.replicate (todo.length + 1) (.step w c))
      V'.disk = W.disk ∧ V'.ids = W.ids ∧
      (V'.worker w).pc = match sortByTime (found ++ pendingIn W todo) with
        | [] => .sample
        | (id, _) :: _ => .fetch id := by
    intro todo
    induction todo with
    | nil =>
      intro found V h1 h2 h3 h4 _
      simp only [List.length_nil, Nat.zero_add, List.replicate_one, run, List.foldl_cons,
        List.foldl_nil, act, h3, if_true, stepW, h4, pendingIn, List.filterMap_nil, List.append_nil]
      split
      · next hh => simp [h1, h2, hh]
      · next hh => simp [h1, h2, hh]
    | cons id todo ih =>
      intro found V h1 h2 h3 h4 h5
      obtain ⟨t, ht⟩ := Option.isSome_iff_exists.mp (h5 id (by simp))
      have hload : ∃ h, Store.load (V.disk id) = .ok h ∧ h.cur = t := by
        rw [h1]
        unfold World.stored at ht
        split at ht
        · next h hh => cases ht; exact ⟨h, hh, rfl⟩
        · cases ht
      obtain ⟨h, hh, hcur⟩ := hload
      simp only [List.length_cons]
      rw [List.replicate_succ, run_cons]
      set V₁ := act fs st V (.step w c) with hV₁
      have hrest : ∀ id ∈ todo, (W.stored id).isSome := fun i hi => h5 i (by simp [hi])
      by_cases hp : t.state = .pending
      · have e : V₁ = V.goto w (.pend todo (found ++ [(id, t.metadata.timeSampled)])) := by
          rw [hV₁]
          simp only [act, h3, if_true, stepW, h4, hh, hcur, hp]
        have := ih (found ++ [(id, t.metadata.timeSampled)]) V₁ (by rw [e]; exact h1)
          (by rw [e]; exact h2) (by rw [e]; simpa using h3) (by rw [e]; simp) hrest
        simpa [pendingIn, ht, hp] using this
      · have e : V₁ = V.goto w (.pend todo found) := by
          rw [hV₁]
          simp only [act, h3, if_true, stepW, h4, hh, hcur, hp, if_false]
        have := ih found V₁ (by rw [e]; exact h1)
          (by rw [e]; exact h2) (by rw [e]; simpa using h3) (by rw [e]; simp) hrest
        simpa [pendingIn, ht, hp] using this
  have hperm := listing_perm W c
  have h1 : act fs st W (.step w c) = W.goto w (.pend (listing W c) []) := by
    simp only [act, hal, if_true, stepW, hpc]
  have hW' : W' = run fs st (W.goto w (.pend (listing W c) []))
      (List.replicate ((listing W c).length + 1) (.step w c)) := by
    simp only [W']
    rw [List.replicate_succ, run_cons, h1, hperm.length_eq]
  have := loop (listing W c) [] (W.goto w (.pend (listing W c) [])) rfl rfl (by simpa using hal)
    (by simp) (fun id hid => hread id (hperm.mem_iff.mp hid))
  simp only [← hW', List.nil_append] at this
  obtain ⟨e1, e2, e3⟩ := this
  refine ⟨⟨e1, e2⟩, ?_⟩
  have hmem : ∀ t ∈ W.trials, t.state = .pending →
      ∃ id, (id, t.metadata.timeSampled) ∈ sortByTime (pendingIn W (listing W c)) := by
    intro t ht hp
    unfold World.trials at ht
    obtain ⟨id, hid, hst⟩ := List.mem_filterMap.mp ht
    exact ⟨id, (sortByTime_perm _).mem_iff.mpr
      (mem_pendingIn.mpr ⟨hperm.mem_iff.mpr hid, t, hst, hp, rfl⟩)⟩
  have hsorted := sortByTime_sorted (pendingIn W (listing W c)) (by
    intro p hp
    obtain ⟨h1, t, h2, _, h4⟩ := mem_pendingIn.mp hp
    rw [← h4]
    exact hnan _ (hperm.mem_iff.mp h1) t h2)
  cases hs : sortByTime (pendingIn W (listing W c)) with
  | nil =>
    rw [hs] at e3
    refine Or.inl ⟨e3, ?_⟩
    intro t ht hp
    obtain ⟨id, hid⟩ := hmem t ht hp
    rw [hs] at hid
    cases hid
  | cons p rest =>
    rw [hs] at e3
    have hp : p ∈ pendingIn W (listing W c) := (sortByTime_perm _).mem_iff.mp (by simp [hs])
    obtain ⟨h1, t, h2, h3, h4⟩ := mem_pendingIn.mp hp
    refine Or.inr ⟨p.1, t, e3, h2, h3, hperm.mem_iff.mp h1, ?_⟩
    intro t' ht' hp'
    obtain ⟨id', hid'⟩ := hmem t' ht' hp'
    rw [hs] at hid' hsorted
    rw [h4]
    rcases List.mem_cons.mp hid' with e | e
    · rw [← e]
      cases t'.metadata.timeSampled <;> simp [PyFloat.lt]
    · exact (List.pairwise_cons.mp hsorted).1 _ e

/-- Met: trials "1" and "2" are pending (their workers were killed before claiming them), trial "3"
is finished, worker 3 is about to look for a trial. -/
example :
    let W := run noFloat free {} (go 0 3 ++ go 1 3 ++ go 2 3 ++
      go 0 1 { propose "1" with now := .num 7 } ++ go 1 1 { propose "2" with now := .num 6 } ++
      go 2 4 (propose "3") ++ [.kill 0, .kill 1] ++ go 3 1)
    (W.worker 3).alive = true ∧ (W.worker 3).pc = .pendList ∧
    (∀ id ∈ W.ids, (W.stored id).isSome) ∧
    W.trials.map (fun t => (t.state, t.metadata.timeSampled)) =
      [(.pending, .num 7), (.pending, .num 6), (.success, .num 5)] ∧
    ((run noFloat free W (go 3 5)).worker 3).pc = .fetch "2" := by decide +kernel

/-! ## C20 The worker loop continues after an exception -/

/-- A worker whose objective raises: four steps later, nobody having touched the trial since it was
claimed, the trial is stored as CRASHED with the exception and the configured default loss and cost,
the default cost is charged, the error is in the shared log, and the worker is back at the top of its
loop, alive. -/
theorem C20_worker_continues (fs : String → Option PyFloat) (st : Nat → Settings) (W : World)
    (w : Nat) (c : Choice) (id : String) (h : Handle Trial) (e : Exc) (tb : String)
    (hal : (W.worker w).alive = true) (hpc : (W.worker w).pc = .eval id h)
    (hcur : (W.disk id).ver = some h.ver) (hout : c.outcome = .raised e tb) :
    let W' := run fs st W (List.replicate 4 (.step w c))
    (W'.worker w).pc = .top ∧ (W'.worker w).alive = true ∧
    (∃ t r, W'.stored id = some t ∧ t.state = .crashed ∧ t.report = some r ∧ t.config = h.cur.config ∧
      r.err = some e ∧ r.tb = some tb ∧ r.loss = (st w).dv.lossValueOnError ∧
      r.cost = (st w).dv.costValueOnError ∧ r.reportedAs = .crashed) ∧
    W'.errs = W.errs ++ [⟨h.cur.id, workerName w, e.cls, e.msg, some tb⟩] ∧
    W'.budget = W.budget + ((st w).dv.costValueOnError).getD 0 := by
  have hb : ∀ (x : PyFloat) (k : Option PyFloat), charge x k = x + k.getD 0 := by
    intro x k
    cases k <;> simp [charge]
  simp [run, act, hal, stepW, hpc, hout, evalTrial, Trial.setComplete, Store.put, hcur, Store.bump,
    Store.write, World.stored, Store.load, Store.read, hb, errEntry, Trial.id,
    ReportedAs.state]

/-- Met: worker 0 is about to call the objective for trial "1". -/
example :
    let W := run noFloat free {} (go 0 5 (failing "1"))
    (match (W.worker 0).pc with
      | .eval id h => (W.disk id).ver == some h.ver
      | _ => false) = true ∧ (W.worker 0).alive = true := by decide +kernel

/-! ## C47 The trial in progress -/

/-- How `_set_global_trial` around one evaluation ends, `neps/runtime.py:100-116, 447-455`. -/
inductive SlotOut
  | refused                       -- `NePSError`, `runtime.py:104-112`
  | escaped (e : PyErr)           -- the evaluation raised
  | callbackRaised                -- a registered end-of-trial callback raised
  | done
deriving DecidableEq, Repr

/-- One evaluation in a process whose slot `_CURRENTLY_RUNNING_TRIAL_IN_PROCESS` holds `slot`:
the slot afterwards, what `get_in_progress_trial` returns inside the objective (`none` if the
objective is not called), and how it ends. `callbacksOk` says that the registered callbacks
(`runtime.py:92-97`) return. There is no `try`/`finally` around the `yield`. -/
def evalInSlot (fs : String → Option PyFloat) (slot : Option Trial) (t : Trial)
    (dv : DefaultReportValues) (o : Outcome) (callbacksOk : Bool) :
    Option Trial × Option Trial × SlotOut :=
  match slot with
  | some u => (some u, none, .refused)
  | none =>
    let slot := some t
    match evalTrial fs t dv o 0 0 with
    | .error e => (slot, slot, .escaped e)
    | .ok _ => if callbacksOk then (none, slot, .done) else (slot, slot, .callbackRaised)

/-- A sequence of evaluations in one process (several `neps.run` calls may be involved). -/
def evalsInSlot (fs : String → Option PyFloat) (dv : DefaultReportValues) :
    Option Trial → List (Trial × Outcome × Bool) → Option Trial × List (Option Trial × SlotOut)
  | slot, [] => (slot, [])
  | slot, (t, o, cb) :: l =>
    let (slot, seen, out) := evalInSlot fs slot t dv o cb
    let (slot, outs) := evalsInSlot fs dv slot l
    (slot, (seen, out) :: outs)

/-- If every objective raises or returns a well-formed result, and the callbacks return, then inside
each evaluation the trial in progress is the one being evaluated, none is refused, and the slot is
empty at the end. Missing: malformed results and raising callbacks, see
`C47_slot_after_malformed_fails`. -/
theorem C47_slot_partial (fs : String → Option PyFloat) (dv : DefaultReportValues)
    (l : List (Trial × Outcome × Bool))
    (hok : ∀ x ∈ l, x.2.2 = true ∧ ∀ v, x.2.1 = .returned v →
      (parseUserResult fs v dv.costIfNotProvided dv.learningCurveIfNotProvided).isOk = true) :
    evalsInSlot fs dv none l = (none, l.map (fun x => (some x.1, .done))) := by
  induction l with
  | nil => rfl
  | cons x l ih =>
    obtain ⟨t, o, cb⟩ := x
    have hx := hok (t, o, cb) (by simp)
    have e : evalInSlot fs none t dv o cb = (none, some t, .done) := by
      have hcb : cb = true := hx.1
      subst hcb
      cases o with
      | raised e tb => simp [evalInSlot, evalTrial]
      | returned v =>
        have := hx.2 v rfl
        cases hp : parseUserResult fs v dv.costIfNotProvided dv.learningCurveIfNotProvided with
        | error e => rw [hp] at this; cases this
        | ok p => simp [evalInSlot, evalTrial, hp]
    simp only [evalsInSlot, e, ih (fun y hy => hok y (by simp [hy])), List.map_cons]

/-- A trial used in examples. -/
def demoTrial (id : String) : Trial := Trial.new id [("x", .int 3)] "loc" none none (.num 1) "w"

/-- The hypotheses are met by a success and a crash. -/
example : ∀ x ∈ [(demoTrial "1", Outcome.returned (.float (.num 1)), true),
      (demoTrial "2", .raised ⟨"E", "m", true⟩ "tb", true)],
    x.2.2 = true ∧ ∀ v, x.2.1 = .returned v →
      (parseUserResult (fun _ => none) v none .none).isOk = true := by
  intro x hx
  simp only [List.mem_cons, List.not_mem_nil, or_false] at hx
  rcases hx with rfl | rfl
  · refine ⟨rfl, ?_⟩
    intro v hv
    cases hv
    decide
  · exact ⟨rfl, by simp⟩

/-- The property as stated is false: after an objective returned `None`, the next evaluation in this
process is refused. -/
theorem C47_slot_after_malformed_fails :
    evalsInSlot (fun _ => none) {} none [(demoTrial "1", .returned .none, true),
      (demoTrial "2", .returned (.float (.num 1)), true)] =
      (some (demoTrial "1"), [(some (demoTrial "1"), .escaped .valueError), (none, .refused)]) := by
  decide

end Neps.Run
