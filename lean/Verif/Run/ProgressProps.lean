import Verif.Run.Progress
import Verif.Run.Policy
import Verif.Run.SpentSpec

/-!
# C118 A worker on its own finishes the job

The other properties of runs say that nothing bad happens. These say that something good does: a
worker that is left alone with the directory, after any history, evaluates what is left to evaluate
and stops.
-/

namespace Neps.Run

/-- The settings of `neps.run(max_evaluations_total=N, ignore_errors=True)`: no other limit. -/
structure OnlyTotal (s : Settings) (N : Nat) : Prop where
  onError : s.onError = .ignore
  total : s.maxEvalsTotal = some N
  costTotal : s.maxCostTotal = none
  timeTotal : s.maxEvalTimeTotal = none
  evalsWorker : s.maxEvalsWorker = none
  costWorker : s.maxCostWorker = none
  wallclock : s.maxWallclockWorker = none
  timeWorker : s.maxEvalTimeWorker = none

/-- No limit at all, errors ignored. -/
structure NoLimit (s : Settings) : Prop where
  onError : s.onError = .ignore
  total : s.maxEvalsTotal = none
  costTotal : s.maxCostTotal = none
  timeTotal : s.maxEvalTimeTotal = none
  evalsWorker : s.maxEvalsWorker = none
  costWorker : s.maxCostWorker = none
  wallclock : s.maxWallclockWorker = none
  timeWorker : s.maxEvalTimeWorker = none

/-- `run` has returned, or has raised because of an error of an objective. -/
def Ended (W : World) (w : Nat) : Prop :=
  (∃ h, (W.worker w).pc = .stopped h) ∨ (W.worker w).pc = .raised .workerRaise

theorem localCheck_free {s : Settings} (h0 : s.onError = .ignore) (h1 : s.maxEvalsWorker = none)
    (h2 : s.maxCostWorker = none) (h3 : s.maxWallclockWorker = none)
    (h4 : s.maxEvalTimeWorker = none) (err count cost wall evalTime) :
    localCheck s err count cost wall evalTime = none := by
  unfold localCheck
  rw [h0, h1, h2, h3, h4]
  cases err <;> simp [reachedN, reached]

theorem checked_onlyTotal {s N} (h : OnlyTotal s N) (W : World) (w : Nat) (wall : PyFloat) :
    checked s W w wall = if N ≤ evalCount s W.trials then .stopped .evalsTotal else .pendList := by
  unfold checked
  simp only [localCheck_free h.onError h.evalsWorker h.costWorker h.wallclock h.timeWorker]
  simp only [Settings.readsErrors, h.onError, Settings.hasGlobalLimit, h.total, globalCheck,
    h.costTotal, h.timeTotal, reachedN, reached]
  by_cases hN : N ≤ evalCount s W.trials <;> simp [hN]

theorem checked_noLimit {s} (h : NoLimit s) (W : World) (w : Nat) (wall : PyFloat) :
    checked s W w wall = .pendList := by
  unfold checked
  simp only [localCheck_free h.onError h.evalsWorker h.costWorker h.wallclock h.timeWorker]
  simp [Settings.readsErrors, h.onError, Settings.hasGlobalLimit, h.total, h.costTotal, h.timeTotal]

theorem checked_cases (s : Settings) (W : World) (w : Nat) (wall : PyFloat) :
    checked s W w wall = .pendList ∨ (∃ h, checked s W w wall = .stopped h) ∨
      checked s W w wall = .raised .workerRaise := by
  unfold checked
  simp only
  split
  · split
    · exact Or.inr (Or.inr rfl)
    · exact Or.inr (Or.inl ⟨_, rfl⟩)
  · split
    · split
      · exact Or.inr (Or.inr rfl)
      · exact Or.inr (Or.inl ⟨_, rfl⟩)
    · split
      · exact Or.inr (Or.inl ⟨_, rfl⟩)
      · exact Or.inl rfl

/-- A check that passes has not reached the limits on the number of evaluations. -/
theorem checked_pendList {s : Settings} {W : World} {w : Nat} {wall : PyFloat}
    (h : checked s W w wall = .pendList) :
    (∀ n, s.maxEvalsWorker = some n → (W.worker w).count < n) ∧
    (∀ n, s.maxEvalsTotal = some n → evalCount s W.trials < n) := by
  unfold checked at h
  simp only at h
  split at h
  · split at h <;> simp at h
  · next hl =>
    refine ⟨fun n hn => localCheck_none hl hn, fun n hn => ?_⟩
    split at h
    · split at h <;> simp at h
    · split at h
      · simp at h
      · next hg =>
        have hlim : s.hasGlobalLimit = true := by simp [Settings.hasGlobalLimit, hn]
        rw [hlim] at hg
        have := (globalCheck_none hg).1
        simpa [reachedN, hn] using this

theorem solo_ended {fs st w π} {W : World} (h : Ended W w) (n : Nat) :
    solo fs st w π n W = W := by
  induction n with
  | zero => rfl
  | succ n ih =>
    have : act fs st W (.step w (π W)) = W := by
      simp only [act]
      split
      · rcases h with ⟨x, h⟩ | h <;> simp [stepW, h]
      · rfl
    simp only [solo, this, ih]

theorem eventually_of_reaches {fs st w π} {W Y : World} (h : Reaches fs st w π W Y)
    (e : Ended Y w) : ∃ n, ∀ m ≥ n, solo fs st w π m W = Y := by
  obtain ⟨n, rfl⟩ := h
  refine ⟨n, fun m hm => ?_⟩
  obtain ⟨k, rfl⟩ := Nat.exists_eq_add_of_le hm
  rw [solo_add, solo_ended e]

/-- The state in which worker `w`, which has not acted in `hist`, finds itself. -/
theorem ready_run {fs st w} (hist : List Act) (hh : OnlyBy (· ≠ w) hist)
    (hr : ∀ id ∈ (run fs st {} hist).ids, ((run fs st {} hist).stored id).isSome) :
    Ready fs w (run fs st {} hist) ∧ (run fs st {} hist).worker w = {} := by
  have hw := run_other fs st w hist hh {}
  exact ⟨⟨coh_run fs st hist, by rw [hw], hr, unreported_run fs st hist⟩, hw⟩

/-- `m` rounds, unless the worker is stopped before. -/
theorem rounds {fs st w π} (H : Cooperates fs (st w) π) (m : Nat) {W : World} (R : Ready fs w W)
    (hpc : (W.worker w).pc = .top) :
    (∃ Y, Reaches fs st w π W Y ∧ Ended Y w) ∨
    ∃ Y, Reaches fs st w π W Y ∧ Ready fs w Y ∧ (Y.worker w).pc = .top ∧
      evalCount (st w) Y.trials = evalCount (st w) W.trials + m ∧
      (Y.worker w).count = (W.worker w).count + m := by
  induction m with
  | zero => exact Or.inr ⟨W, .refl W, R, hpc, rfl, rfl⟩
  | succ m ih =>
    rcases ih with h | ⟨Y, hY, RY, hpY, e1, e2⟩
    · exact Or.inl h
    · rcases checked_cases (st w) Y w (π Y).wall with hc | hc
      · obtain ⟨Z, id, hZ, RZ, hpZ, _, e3, e4⟩ := round H RY hpY hc
        exact Or.inr ⟨Z, hY.trans hZ, RZ, hpZ, by omega, by omega⟩
      · left
        refine ⟨_, hY.trans (reaches_checked RY.alive hpY RY.readable), ?_⟩
        rcases hc with ⟨h, hc⟩ | hc
        · exact Or.inl ⟨h, by rw [hc]; simp⟩
        · exact Or.inr (by rw [hc]; simp)

/-- `C118_alone_finishes` with the number that the code computes. -/
theorem alone_finishes (fs : String → Option PyFloat) (st : Nat → Settings) (w : Nat)
    (π : World → Choice) (hist : List Act) (N : Nat) (hh : OnlyBy (· ≠ w) hist)
    (hr : ∀ id ∈ (run fs st {} hist).ids, ((run fs st {} hist).stored id).isSome)
    (hs : OnlyTotal (st w) N) (H : Cooperates fs (st w) π) :
    ∃ n, ∀ m ≥ n, ∃ W, solo fs st w π m (run fs st {} hist) = W ∧
      (W.worker w).pc = .stopped .evalsTotal ∧
      evalCount (st w) W.trials = max N (evalCount (st w) (run fs st {} hist).trials) ∧
      callsBy W.log w = N - evalCount (st w) (run fs st {} hist).trials := by
  obtain ⟨R, hw⟩ := ready_run hist hh hr
  have key : ∀ d : Nat, ∀ W : World, Ready fs w W → (W.worker w).pc = .top →
      N - evalCount (st w) W.trials = d →
      ∃ Y, Reaches fs st w π W Y ∧ (Y.worker w).pc = .stopped .evalsTotal ∧
        evalCount (st w) Y.trials = max N (evalCount (st w) W.trials) ∧
        callsBy Y.log w = callsBy W.log w + d := by
    intro d
    induction d with
    | zero =>
      intro W R hpc hd
      have hc : checked (st w) W w (π W).wall = .stopped .evalsTotal := by
        rw [checked_onlyTotal hs, if_pos (by omega)]
      have h := reaches_checked (fs := fs) (st := st) (π := π) R.alive hpc R.readable
      rw [hc] at h
      exact ⟨_, h, by simp, by
        rw [show (W.goto w (.stopped .evalsTotal)).trials = W.trials from rfl]; omega, rfl⟩
    | succ d ih =>
      intro W R hpc hd
      have hc : checked (st w) W w (π W).wall = .pendList := by
        rw [checked_onlyTotal hs, if_neg (by omega)]
      obtain ⟨Y, id, hY, RY, hpY, e1, e2, _⟩ := round H R hpc hc
      obtain ⟨Z, hZ, hpZ, e3, e4⟩ := ih Y RY hpY (by omega)
      refine ⟨Z, hY.trans hZ, hpZ, by omega, ?_⟩
      rw [e4]
      simp only [callsBy, e1, List.countP_cons, beq_self_eq_true, if_true]
      omega
  obtain ⟨Y, hY, hpY, e1, e2⟩ := key _ _ R (by rw [hw]) rfl
  obtain ⟨n, hn⟩ := eventually_of_reaches hY (Or.inl ⟨_, hpY⟩)
  refine ⟨n, fun m hm => ⟨Y, hn m hm, hpY, e1, ?_⟩⟩
  have h0 := (countInv_run fs st hist w).calls
  rw [hw] at h0
  simp only [PC.uncounted, Bool.toNat_false, Nat.add_zero] at h0
  rw [e2, h0]
  omega

/-- Left alone with a readable directory, after any history `hist` of other workers and their
crashes, a worker run with `max_evaluations_total = N` evaluates exactly as many trials as are missing
and then stops because of the limit. -/
theorem C118_alone_finishes (fs : String → Option PyFloat) (st : Nat → Settings) (w : Nat)
    (π : World → Choice) (hist : List Act) (N : Nat) (hh : OnlyBy (· ≠ w) hist)
    (hr : ∀ id ∈ (run fs st {} hist).ids, ((run fs st {} hist).stored id).isSome)
    (hs : OnlyTotal (st w) N) (H : Cooperates fs (st w) π) :
    ∃ n, ∀ m ≥ n, ∃ W, solo fs st w π m (run fs st {} hist) = W ∧
      (W.worker w).pc = .stopped .evalsTotal ∧
      spent (st w) W.trials = max N (spent (st w) (run fs st {} hist).trials) ∧
      callsBy W.log w = N - spent (st w) (run fs st {} hist).trials := by
  simpa only [evalCount_eq_spent] using alone_finishes fs st w π hist N hh hr hs H

/-- Whatever the other settings are, a limit on the number of evaluations, in total or by this worker,
makes a worker that is left alone end. -/
theorem C118_alone_ends (fs : String → Option PyFloat) (st : Nat → Settings) (w : Nat)
    (π : World → Choice) (hist : List Act) (N : Nat) (hh : OnlyBy (· ≠ w) hist)
    (hr : ∀ id ∈ (run fs st {} hist).ids, ((run fs st {} hist).stored id).isSome)
    (hs : (st w).maxEvalsTotal = some N ∨ (st w).maxEvalsWorker = some N)
    (H : Cooperates fs (st w) π) :
    ∃ n, ∀ m ≥ n, Ended (solo fs st w π m (run fs st {} hist)) w := by
  obtain ⟨R, hw⟩ := ready_run hist hh hr
  have : ∃ Y, Reaches fs st w π (run fs st {} hist) Y ∧ Ended Y w := by
    rcases rounds H N R (by rw [hw]) with h | ⟨Y, hY, RY, hpY, e1, e2⟩
    · exact h
    · refine ⟨_, hY.trans (reaches_checked RY.alive hpY RY.readable), ?_⟩
      rcases checked_cases (st w) Y w (π Y).wall with hc | ⟨h, hc⟩ | hc
      · obtain ⟨h1, h2⟩ := checked_pendList hc
        rcases hs with hs | hs
        · have := h2 N hs; omega
        · have := h1 N hs; omega
      · exact Or.inl ⟨h, by rw [hc]; simp⟩
      · exact Or.inr (by rw [hc]; simp)
  obtain ⟨Y, hY, hE⟩ := this
  obtain ⟨n, hn⟩ := eventually_of_reaches hY hE
  exact ⟨n, fun m hm => by rw [hn m hm]; exact hE⟩

/-- Without any limit, and with errors ignored, the worker never ends: it calls the objective as often
as one likes. -/
theorem C118_alone_goes_on (fs : String → Option PyFloat) (st : Nat → Settings) (w : Nat)
    (π : World → Choice) (hist : List Act) (hh : OnlyBy (· ≠ w) hist)
    (hr : ∀ id ∈ (run fs st {} hist).ids, ((run fs st {} hist).stored id).isSome)
    (hs : NoLimit (st w)) (H : Cooperates fs (st w) π) (k : Nat) :
    ∃ n, callsBy (solo fs st w π n (run fs st {} hist)).log w = k := by
  obtain ⟨R, hw⟩ := ready_run hist hh hr
  have h0 := (countInv_run fs st hist w).calls
  rw [hw] at h0
  simp only [PC.uncounted, Bool.toNat_false, Nat.add_zero] at h0
  have key : ∀ k, ∃ Y, Reaches fs st w π (run fs st {} hist) Y ∧ Ready fs w Y ∧
      (Y.worker w).pc = .top ∧ callsBy Y.log w = k := by
    intro k
    induction k with
    | zero => exact ⟨_, .refl _, R, by rw [hw], h0⟩
    | succ k ih =>
      obtain ⟨Y, hY, RY, hpY, e⟩ := ih
      obtain ⟨Z, id, hZ, RZ, hpZ, e1, _, _⟩ := round H RY hpY (checked_noLimit hs Y w _)
      refine ⟨Z, hY.trans hZ, RZ, hpZ, ?_⟩
      unfold callsBy at e ⊢
      simp [e1, e]
  obtain ⟨Y, ⟨n, rfl⟩, _, _, e⟩ := key k
  exact ⟨n, e⟩

/-! ## A case that meets the hypotheses -/

/-- A name that is longer than all names in use. -/
def longName (ids : List String) : String :=
  String.ofList (List.replicate ((ids.map String.length).sum + 1) 'x')

theorem longName_new (ids : List String) : longName ids ∉ ids := by
  intro h
  have h1 : ∀ (l : List String), ∀ x ∈ l, x.length ≤ (l.map String.length).sum := by
    intro l
    induction l with
    | nil => simp
    | cons a l ih =>
      intro x hx
      rw [List.map_cons, List.sum_cons]
      rcases List.mem_cons.mp hx with rfl | hx
      · omega
      · have := ih x hx; omega
  have h2 := h1 ids _ h
  simp [longName] at h2

/-- An optimizer that proposes such names, and an objective that fails at every even number of
trials. -/
def helpful (W : World) : Choice :=
  if W.ids.length % 2 = 0 then failing (longName W.ids) else propose (longName W.ids)

theorem helpful_cooperates (N w : Nat) : Cooperates noFloat (limited N w) helpful where
  asks := by
    intro W
    refine ⟨⟨longName W.ids, [("x", .int 3)], none⟩, ?_, longName_new W.ids, by simp⟩
    unfold helpful
    split <;> rfl
  returns := by
    intro W v hv
    unfold helpful at hv
    split at hv
    · simp [failing] at hv
    · simp only [propose, Outcome.returned.injEq] at hv
      subst hv
      exact ⟨_, rfl⟩

/-- Worker 0 evaluates trial "1" and is killed in its second evaluation; then worker 1 is started with
`max_evaluations_total = 5`. It makes three evaluations and stops. -/
example : ∃ n, ∀ m ≥ n, ∃ W,
    solo noFloat (limited 5) 1 helpful m
      (run noFloat (limited 5) {} (go 0 10 (propose "1") ++ go 0 9 (propose "2") ++ [.kill 0])) = W ∧
    (W.worker 1).pc = .stopped .evalsTotal ∧ spent (limited 5 1) W.trials = 5 ∧
    callsBy W.log 1 = 3 := by
  have h := C118_alone_finishes noFloat (limited 5) 1 helpful
    (go 0 10 (propose "1") ++ go 0 9 (propose "2") ++ [.kill 0]) 5
    (by unfold OnlyBy; decide +kernel) (by decide +kernel)
    ⟨rfl, rfl, rfl, rfl, rfl, rfl, rfl, rfl⟩ (helpful_cooperates 5 1)
  have e : spent (limited 5 1) (run noFloat (limited 5) {}
      (go 0 10 (propose "1") ++ go 0 9 (propose "2") ++ [.kill 0])).trials = 2 := by decide +kernel
  rw [e] at h
  exact h

end Neps.Run
