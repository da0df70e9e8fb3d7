import Verif.Run.CacheSim
import Verif.Run.Props

/-!
# C135: workers that keep opened trials behave like workers that always read the disk
-/

namespace Neps.Run

open Neps.Store (Disk Handle)

theorem Sim.looksLike {C : CWorld} {ws} (S : Sim C ws) : LooksLike C (C.abs ws) := by
  refine ⟨rfl, rfl, rfl, rfl, rfl, fun w => (S.rel w).alive, fun w => (S.rel w).count,
    fun w => (S.rel w).cost, fun w => (S.rel w).err, ?_, ?_, ?_, ?_⟩
  all_goals
    intro w
    have h := (S.rel w).pc
    simp only [CWorld.abs]
    generalize (C.worker w).pc = X at h ⊢
    generalize (ws w).pc = Y at h ⊢
    cases h <;> simp [CPC.insideReport, PC.insideReport]

theorem sim_history (fs : String → Option PyFloat) (st : Nat → Settings) (as : List CAct)
    (hl : ∀ a ∈ as, a.gotLock) :
    ∃ bs ws', run fs st {} bs.flatten = (crun fs st {} as).abs ws' ∧
      Sim (crun fs st {} as) ws' ∧ SameTurns as bs :=
  sim_crun fs st as {} (fun _ => {}) hl sim_init

/-- Whatever workers with caches do, in any interleaving and with any kills, workers that always read
the disk can do in the same turns, and it looks the same from outside. (All locks are obtained: see
`C135_lock_timeout_fails`.) -/
theorem C135_same_runs_partial (fs : String → Option PyFloat) (st : Nat → Settings)
    (as : List CAct) (hl : ∀ a ∈ as, a.gotLock) :
    ∃ bs, SameTurns as bs ∧ LooksLike (crun fs st {} as) (run fs st {} bs.flatten) := by
  obtain ⟨bs, ws', h1, S, h2⟩ := sim_history fs st as hl
  exact ⟨bs, h2, h1 ▸ S.looksLike⟩

/-- At every moment, a worker that syncs a trial it keeps gets exactly what is stored, unless it holds
the result of evaluating that trial. -/
theorem C135_sees_what_is_stored_partial (fs : String → Option PyFloat) (st : Nat → Settings)
    (as : List CAct) (hl : ∀ a ∈ as, a.gotLock) (w : Nat) (id : String)
    (hk : (((crun fs st {} as).worker w).kept id).isSome)
    (hr : ¬ ((crun fs st {} as).worker w).pc.reporting id) (t : Trial) :
    (∃ k, ((crun fs st {} as).worker w).kept.sync id ((crun fs st {} as).disk id) = .ok (k, t)) ↔
      (crun fs st {} as).stored id = some t := by
  obtain ⟨bs, ws', h1, S, h2⟩ := sim_history fs st as hl
  generalize crun fs st {} as = C at *
  have hne : (C.worker w).pc.changed ≠ some id := by
    intro h
    apply hr
    generalize (C.worker w).pc = pc at h
    cases pc <;> simp_all [CPC.changed, CPC.reporting]
  unfold CWorld.stored
  rcases hd : Store.load (C.disk id) with e | h
  · obtain ⟨e', he⟩ := sync_err (S.kept w) hne hd
    simp [he]
  · rw [sync_ok (S.kept w) hne hk hd]
    simp

theorem flatten_onlyBy {p : Nat → Prop} {as : List CAct} {bs : List (List Act)}
    (h : SameTurns as bs) (hp : ∀ a ∈ as, p a.who) : OnlyBy p bs.flatten := by
  induction h with
  | nil => simp [OnlyBy]
  | cons h _ ih =>
    intro x hx
    rw [List.flatten_cons, List.mem_append] at hx
    rcases hx with hx | hx
    · rw [h x hx]; exact hp _ (by simp)
    · exact ih (fun a ha => hp a (List.mem_cons_of_mem _ ha)) x hx

/-- Nothing is lost (compare `C08_nothing_lost`). -/
theorem C135_nothing_lost_partial (fs : String → Option PyFloat) (st : Nat → Settings)
    (as bs : List CAct) (hl : ∀ a ∈ as ++ bs, a.gotLock) (id : String) (t : Trial)
    (h : (crun fs st {} as).stored id = some t) :
    ∃ t', (crun fs st {} (as ++ bs)).stored id = some t' ∧ t'.sampledPart = t.sampledPart ∧
      (t.report.isSome → t'.report.isSome) := by
  obtain ⟨xs, ws₁, h1, S₁, -⟩ := sim_history fs st as fun a ha => hl a (by simp [ha])
  obtain ⟨ys, ws₂, h2, -, -⟩ := sim_crun fs st bs _ ws₁ (fun a ha => hl a (by simp [ha])) S₁
  have h3 : (run fs st {} xs.flatten).stored id = some t := by rw [h1]; exact h
  obtain ⟨t', h4, h5, h6⟩ := C08_nothing_lost fs st xs.flatten ys.flatten id t h3
  refine ⟨t', ?_, h5, h6⟩
  rw [run_append, h1, h2] at h4
  rw [crun, List.foldl_append]
  exact h4

/-- The total number of evaluated configurations exceeds `max_evaluations_total` by at most the number
of other workers (compare `C13_total_bound`). -/
theorem C135_total_bound_partial (fs : String → Option PyFloat) (st : Nat → Settings)
    (as : List CAct) (hl : ∀ a ∈ as, a.gotLock) (N k : Nat) (hk : 0 < k)
    (hby : ∀ a ∈ as, a.who < k)
    (hst : ∀ w < k, (st w).maxEvalsTotal = some N ∧ (st w).includeInProgress = true) :
    ((evaluations (crun fs st {} as).log).map (·.2)).dedup.length ≤ N + k - 1 := by
  obtain ⟨bs, h1, h2⟩ := C135_same_runs_partial fs st as hl
  rw [h2.log]
  exact C13_total_bound fs st _ N k hk (flatten_onlyBy h1 hby) hst

/-- The limit of one worker is exact (compare `C12_worker_limit_exact`). -/
theorem C135_worker_limit_partial (fs : String → Option PyFloat) (st : Nat → Settings)
    (as : List CAct) (hl : ∀ a ∈ as, a.gotLock) (w n : Nat)
    (hn : (st w).maxEvalsWorker = some n) :
    callsBy (crun fs st {} as).log w ≤ n ∧
    (((crun fs st {} as).worker w).pc = .stopped .evalsWorker →
      callsBy (crun fs st {} as).log w = n) := by
  obtain ⟨bs, -, h2⟩ := C135_same_runs_partial fs st as hl
  rw [h2.log, h2.stopped]
  exact C12_worker_limit_exact fs st _ w n hn

/-- The budget is the sum of the reported costs (compare `C10_budget_is_sum`). -/
theorem C135_budget_is_sum_partial (fs : String → Option PyFloat) (st : Nat → Settings)
    (as : List CAct) (hl : ∀ a ∈ as, a.gotLock)
    (hout : ∀ w, ((crun fs st {} as).worker w).pc.insideReport = false) :
    (crun fs st {} as).budget =
      ((reports (crun fs st {} as).log).map (fun p => p.2.cost.getD 0)).sum := by
  obtain ⟨bs, -, h2⟩ := C135_same_runs_partial fs st as hl
  rw [h2.log, h2.budget]
  exact C10_budget_is_sum fs st _ fun w => by rw [← h2.insideReport]; exact hout w

/-! ## Concrete cases -/

/-- Worker `w` takes `n` steps. -/
def cgo (w n : Nat) (c : Choice := {}) : List CAct := List.replicate n (.step w c)

/-- Worker 0 samples, evaluates and reports trial "1"; worker 1 opens it before it is reported, and
syncs it afterwards. -/
def opensEarly : List CAct :=
  cgo 0 6 (propose "1") ++ cgo 1 3 (propose "2") ++ cgo 0 3 (propose "1") ++ cgo 1 1 (propose "2")

example : ∀ a ∈ opensEarly, a.gotLock := by decide +kernel

/-- Worker 1 keeps the old version of trial "1" and syncing gives the new one. -/
example :
    let C := crun noFloat free {} opensEarly
    ((C.worker 1).kept "1").map (fun h => (h.cur.state, h.ver)) = some (.evaluating, 1) ∧
    (C.stored "1").map (·.state) = some .success ∧
    ((C.worker 1).kept.sync "1" (C.disk "1")).toOption.map (·.2.state) = some .success ∧
    (C.worker 1).pc = .pendSync ["1"] [] := by decide +kernel

/-- A lock that is not obtained in time leaves a worker with a wrong copy: the trial is changed in
memory before it is written (`neps/runtime.py:416-420`), its version is not, so the worker takes the
change for what is stored. Here `max_evaluations_total = 2`, and there is one worker. It evaluates one
trial, samples a second one, does not get its lock, and then stops because it thinks that the second
trial is being evaluated. But the trial is stored as PENDING, and nobody has evaluated it. If the lock
is obtained, the same worker evaluates both. -/
theorem C135_lock_timeout_fails :
    let first := cgo 0 12 (propose "1") ++ cgo 0 12 (propose "2")
    let bad := crun noFloat (limited 2) {} (first ++ [.lockTimeout 0 (propose "2")] ++
      cgo 0 8 (propose "3"))
    let good := crun noFloat (limited 2) {} (first ++ cgo 0 12 (propose "2"))
    (bad.worker 0).pc = .stopped .evalsTotal ∧
    evaluations bad.log = [(0, "1")] ∧
    (bad.stored "2").map (·.state) = some .pending ∧
    ((bad.worker 0).kept.sync "2" (bad.disk "2")).toOption.map (·.2.state) = some .evaluating ∧
    (good.worker 0).pc = .stopped .evalsTotal ∧
    evaluations good.log = [(0, "2"), (0, "1")] := by decide +kernel

end Neps.Run
