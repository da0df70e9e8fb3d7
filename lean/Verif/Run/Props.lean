import Verif.Run.Totals
import Verif.Run.Witness
import Mathlib.Data.List.Dedup

/-!
# Properties of runs with any number of workers
-/

namespace Neps.Run

open Neps.Store (Disk Handle)

/-! ## C07 Each trial is evaluated at most once -/

/-- The property as stated is false: with two workers, both evaluate trial "1". -/
theorem C07_evaluated_once_fails :
    timesEvaluated (run noFloat free {} doubleEval).log "1" = 2 := by decide +kernel

/-- The part that holds for all interleavings: if no worker ever claims a trial from a copy that no
longer said PENDING (the window between `pending()` and `synced()` in `get_next_pending_trial`), no
trial is evaluated twice. Missing: the code does not establish the hypothesis, see
`C07_evaluated_once_fails`. -/
theorem C07_evaluated_once_partial (fs : String → Option PyFloat) (st : Nat → Settings)
    (as : List Act)
    (hclaims : ∀ c ∈ claims (run fs st {} as).log, c.2.2.state = .pending) (id : String) :
    timesEvaluated (run fs st {} as).log id ≤ 1 := by
  refine (evaluated_le_claimed (evalInv_run fs st as) id).trans ?_
  refine le_trans (le_of_eq ?_) ((claimInv_run fs st as).once id)
  unfold pendingClaims
  apply List.countP_congr
  intro c hc
  simp [hclaims c hc]

/-- Unconditional for workers that run one after the other (each possibly killed at any point), in
particular for a single worker. -/
theorem C07_sequential_evaluated_once (fs : String → Option PyFloat) (st : Nat → Settings)
    (blocks : List (Nat × List Act)) (hby : ∀ b ∈ blocks, OnlyBy (· = b.1) b.2)
    (hnd : (blocks.map (·.1)).Nodup) (id : String) :
    timesEvaluated (run fs st {} (blocks.flatMap (·.2))).log id ≤ 1 :=
  C07_evaluated_once_partial fs st _
    (sequential_run blocks hby hnd (by simp [AllPending, claims]) (fun _ _ => rfl)) id

/-- The hypotheses are met by a run with two concurrent workers and three evaluations. -/
example :
    let log := (run noFloat free {} (go 0 5 (propose "1") ++ go 1 9 (propose "2") ++
      go 0 11 (propose "3"))).log
    (∀ c ∈ claims log, c.2.2.state = .pending) ∧ (evaluations log).length = 3 := by
  decide +kernel

/-- And by two workers one after the other, the first of which is killed while evaluating. -/
example :
    let blocks := [(0, go 0 5 (propose "1") ++ [.kill 0]), (1, go 1 8 (propose "2"))]
    (∀ b ∈ blocks, OnlyBy (· = b.1) b.2) ∧ (blocks.map (·.1)).Nodup ∧
    (evaluations (run noFloat free {} (blocks.flatMap (·.2))).log).length = 1 := by
  refine ⟨?_, by decide +kernel, by decide +kernel⟩
  unfold OnlyBy
  decide +kernel

/-! ## C08 Trials and reports are never lost -/

/-- Whatever happens later (`bs`), a trial on disk stays there and readable, the data fixed when it
was sampled never changes, and it keeps a report once it has one. -/
theorem C08_nothing_lost (fs : String → Option PyFloat) (st : Nat → Settings) (as bs : List Act)
    (id : String) (t : Trial) (h : (run fs st {} as).stored id = some t) :
    ∃ t', (run fs st {} (as ++ bs)).stored id = some t' ∧ t'.sampledPart = t.sampledPart ∧
      (t.report.isSome → t'.report.isSome) := by
  obtain ⟨⟨v, hv⟩, hd⟩ := stored_eq_some.mp h
  obtain ⟨t', h1, h2, h3, h4⟩ := run_keeps (st := st) (coh_run fs st as) bs hd
  rw [run_append]
  refine ⟨t', stored_eq_some.mpr ⟨?_, h1⟩, h3, h4⟩
  have := h2 (by simp [hv])
  exact Option.isSome_iff_exists.mp this

/-- Ids on disk stay on disk, and there is one directory per id. -/
theorem C08_ids_kept (fs : String → Option PyFloat) (st : Nat → Settings) (as bs : List Act) :
    (∀ id ∈ (run fs st {} as).ids, id ∈ (run fs st {} (as ++ bs)).ids) ∧
    (run fs st {} (as ++ bs)).ids.Nodup := by
  refine ⟨fun id h => ?_, (coh_run fs st _).nodup⟩
  rw [run_append]
  exact run_ids_mono (coh_run fs st as) bs h

/-- After one evaluation there is a trial with a report. -/
example : ((run noFloat free {} oneTrial).stored "1").isSome ∧
    (((run noFloat free {} oneTrial).stored "1").bind (·.report)).isSome := by decide +kernel

/-! ## C10 The shared cost budget -/

/-- Whenever no worker is inside `report_trial_evaluation`, the budget is the sum of the costs of
all reports stored so far. -/
theorem C10_budget_is_sum (fs : String → Option PyFloat) (st : Nat → Settings) (as : List Act)
    (hout : ∀ w, ((run fs st {} as).worker w).pc.insideReport = false) :
    (run fs st {} as).budget =
      ((reports (run fs st {} as).log).map (fun p => p.2.cost.getD 0)).sum := by
  have I := bookInv_run fs st as
  rw [I.budget]
  refine (List.Perm.map _ ?_).sum_eq
  rw [List.perm_iff_count]
  intro p
  rw [I.charged p]
  have : ((run fs st {} as).worker p.1).pc.uncharged = none := by
    have := hout p.1
    revert this
    cases ((run fs st {} as).worker p.1).pc <;> simp [PC.insideReport, PC.uncharged]
  simp [this]

/-- Two workers, costs 2 and 3, nobody inside the report: the budget is 5. -/
example :
    let W := run noFloat free {} (go 0 5 (withCost "1" (.num 2)) ++ go 1 9 (withCost "2" (.num 3)) ++
      go 0 4 (withCost "3" (.num 2)))
    (W.worker 0).pc.insideReport = false ∧ (W.worker 1).pc.insideReport = false ∧
    (reports W.log).length = 2 ∧ W.budget = .num 5 := by decide +kernel

/-! ## C11 The shared error log -/

/-- Whenever no worker is inside `report_trial_evaluation`: the error log is the list of appends in
order; the appends are exactly one per stored report with an error; and the error used for stopping
is the last one appended. -/
theorem C11_error_log (fs : String → Option PyFloat) (st : Nat → Settings) (as : List Act)
    (hout : ∀ w, ((run fs st {} as).worker w).pc.insideReport = false) :
    (run fs st {} as).errs = ((appends (run fs st {} as).log).map Prod.snd).reverse ∧
    (appends (run fs st {} as).log).Perm ((reports (run fs st {} as).log).filterMap expectedEntry) ∧
    latestErr (run fs st {} as).errs = ((appends (run fs st {} as).log).map Prod.snd).head? := by
  have I := bookInv_run fs st as
  refine ⟨?_, ?_, ?_⟩
  · rw [← I.errs, List.reverse_reverse]
  · rw [List.perm_iff_count]
    intro p
    rw [I.logged p]
    have : ((run fs st {} as).worker p.1).pc.unlogged p.1 = none := by
      have := hout p.1
      revert this
      cases ((run fs st {} as).worker p.1).pc <;> simp [PC.insideReport, PC.unlogged]
    simp [this]
  · rw [← I.errs, latestErr, List.head?_reverse]

example :
    let W := run noFloat free {} (go 0 9 (failing "1") ++ go 1 10 (failing "2"))
    W.errs.map (·.trialId) = ["1", "2"] ∧ (W.worker 0).pc.insideReport = false ∧
    (W.worker 1).pc.insideReport = false := by decide +kernel

/-! ## C12 `max_evaluations_for_worker` -/

/-- A worker with limit `n` calls the objective at most `n` times, and if it stops because of this
limit it has called it exactly `n` times. -/
theorem C12_worker_limit_exact (fs : String → Option PyFloat) (st : Nat → Settings)
    (as : List Act) (w n : Nat) (hn : (st w).maxEvalsWorker = some n) :
    callsBy (run fs st {} as).log w ≤ n ∧
    (((run fs st {} as).worker w).pc = .stopped .evalsWorker →
      callsBy (run fs st {} as).log w = n) := by
  have I := countInv_run fs st as w
  constructor
  · have h1 := I.calls
    have h2 := I.below n hn
    cases hu : ((run fs st {} as).worker w).pc.uncounted with
    | false => rw [hu] at h1; simp at h1; omega
    | true =>
      rw [hu] at h1
      have hp : ((run fs st {} as).worker w).pc.pastCheck = true := by
        revert hu
        cases ((run fs st {} as).worker w).pc <;> simp [PC.uncounted]
        next e => cases e <;> simp [PC.pastCheck]
      have := h2.1 hp
      simp at h1
      omega
  · intro hs
    rw [I.calls, I.stop n hn hs, hs]
    rfl

/-- A worker with limit 2 stops after two calls. -/
example :
    let W := run noFloat (fun _ => { onError := .ignore, maxEvalsWorker := some 2 }) {}
      (go 0 8 (propose "1") ++ go 0 12 (propose "2"))
    (W.worker 0).pc = .stopped .evalsWorker ∧ callsBy W.log 0 = 2 := by decide +kernel

/-! ## C13 `max_evaluations_total` -/

/-- Every evaluated trial is counted as started. -/
theorem evaluated_started (fs : String → Option PyFloat) (st : Nat → Settings) (as : List Act) :
    ∀ p ∈ evaluations (run fs st {} as).log, p.2 ∈ (run fs st {} as).ids ∧
      (run fs st {} as).startedId p.2 = true := by
  have hcl : ∀ c ∈ claims (run fs st {} as).log, c.2.1 ∈ (run fs st {} as).ids ∧
      (run fs st {} as).startedId c.2.1 = true := by
    have := run_induction fs st
      (P := fun W => Coh fs W ∧ ∀ c ∈ claims W.log, c.2.1 ∈ W.ids ∧ W.startedId c.2.1 = true)
      (W := {}) (fun W w W' I t => by
        refine ⟨I.1.trans t, ?_⟩
        have e := I.1.effect t
        have hch := e.changes I.1
        have old : ∀ c ∈ claims W.log, c.2.1 ∈ W'.ids ∧ W'.startedId c.2.1 = true := by
          intro c hc
          refine ⟨?_, hch.startedId_mono I.1 _ (I.2 c hc).2⟩
          have hm := (I.2 c hc).1
          cases e with
          | none h1 => rw [h1]; exact hm
          | created id t _ h1 => rw [h1]; simp [hm]
          | torn id v n _ h1 => rw [h1]; simp [hm]
          | claimed id h now _ _ _ _ h1 => rw [h1]; exact hm
          | reported id h t r _ _ _ _ _ _ _ _ h1 => rw [h1]; exact hm
        cases e with
        | none h1 h2 h3 => rw [h3]; exact old
        | created id t _ h1 _ _ _ _ h3 => rw [h3]; exact old
        | torn id v n _ h1 _ h3 => rw [h3]; exact old
        | claimed id h now hi _ _ _ h1 hdisk h3 =>
          rw [h3]
          intro c hc
          rcases List.mem_cons.mp hc with rfl | hc
          · refine ⟨by rw [h1]; exact hi, ?_⟩
            have : W'.stored id = some (h.cur.setEvaluating now (workerName w)) :=
              stored_eq_some.mpr (by rw [hdisk]; simp)
            simp only [World.startedId, this]
            exact counted_setEvaluating _ _ _
          · exact old c hc
        | reported id h t r _ _ _ _ _ _ _ _ h1 _ h3 => rw [h3]; exact old)
      ⟨Coh.init fs, by simp [claims]⟩ as
    exact this.2
  rintro ⟨w, id⟩ hp
  have h1 := evalInv_run fs st as w id
  have h2 : 0 < (evaluations (run fs st {} as).log).count (w, id) := List.count_pos_iff.mpr hp
  have h3 : (w, id) ∈ (claims (run fs st {} as).log).map (fun c => (c.1, c.2.1)) :=
    List.count_pos_iff.mp (by omega)
  obtain ⟨c, hc, e⟩ := List.mem_map.mp h3
  have := hcl c hc
  simp only [Prod.mk.injEq] at e
  rw [e.2] at this
  exact this

/-- With `k` workers (counting restarted ones) and `max_evaluations_total = N`, the objective is
called for at most `N + k - 1` different trials, however the workers interleave and wherever they are
killed. -/
theorem C13_total_bound (fs : String → Option PyFloat) (st : Nat → Settings) (as : List Act)
    (N k : Nat) (hk : 0 < k) (hby : OnlyBy (· < k) as)
    (hst : ∀ w < k, (st w).maxEvalsTotal = some N ∧ (st w).includeInProgress = true) :
    ((evaluations (run fs st {} as).log).map (·.2)).dedup.length ≤ N + k - 1 := by
  have hT := totalInv_run (fs := fs) as hby hk hst
  have hsub : ((evaluations (run fs st {} as).log).map (·.2)).dedup.length ≤
      (run fs st {} as).started := by
    rw [started_eq, List.countP_eq_length_filter]
    apply List.Subperm.length_le
    apply List.Nodup.subperm (List.nodup_dedup _)
    intro id hid
    rw [List.mem_dedup, List.mem_map] at hid
    obtain ⟨p, hp, rfl⟩ := hid
    obtain ⟨h1, h2⟩ := evaluated_started fs st as p hp
    simp [h1, h2]
  unfold TotalInv at hT
  omega

/-- With one worker the limit is exact. -/
theorem C13_one_worker (fs : String → Option PyFloat) (st : Nat → Settings) (as : List Act)
    (N : Nat) (hby : OnlyBy (· < 1) as) (hlim : (st 0).maxEvalsTotal = some N)
    (hinc : (st 0).includeInProgress = true) :
    ((evaluations (run fs st {} as).log).map (·.2)).dedup.length ≤ N := by
  have := C13_total_bound fs st as N 1 (by omega) hby (by
    intro w hw
    obtain rfl : w = 0 := by omega
    exact ⟨hlim, hinc⟩)
  omega

/-- Two workers, limit 1: both pass the check before either has started. -/
def bothPass : List Act :=
  go 0 5 (propose "1") ++ go 1 5 (propose "2") ++ go 0 3 (propose "1") ++ go 1 3 (propose "2")

/-- The bound is attained: two workers evaluate two trials although the limit is one. -/
theorem C13_limit_exceeded :
    OnlyBy (· < 2) bothPass ∧
    ((evaluations (run noFloat (limited 1) {} bothPass).log).map (·.2)).dedup = ["2", "1"] := by
  refine ⟨?_, by decide +kernel⟩
  unfold OnlyBy
  decide +kernel

/-! ## C14 `max_cost_total` -/

/-- A worker that acts alone (`as`) after any history of other workers (`hist`): whenever it is
calling the objective, the sum of the costs on disk is not at the limit. -/
theorem alone_run {fs st w} (hist as : List Act) (hh : OnlyBy (· ≠ w) hist)
    (hby : OnlyBy (· = w) as) (hlim : (st w).hasGlobalLimit = true)
    (h0 : ∀ N, (st w).maxEvalsTotal = some N →
      evalCount (st w) (run fs st {} hist).trials ≤ N) :
    AloneInv (st w) (run fs st {} (hist ++ as)) w := by
  have htop : ∀ (l : List Act), OnlyBy (· ≠ w) l → ∀ W : World, W.worker w = {} →
      (run fs st W l).worker w = {} := by
    intro l
    induction l with
    | nil => intro _ W h; exact h
    | cons a l ih =>
      intro hl W h
      refine ih (fun b hb => hl b (by simp [hb])) _ ?_
      have t := act_trans fs st W a
      rw [t.other (Ne.symm (hl a (by simp)))]
      exact h
  have hw := htop hist hh {} rfl
  rw [run_append]
  have key : ∀ (l : List Act), OnlyBy (· = w) l → ∀ W : World, Coh fs W → AloneInv (st w) W w →
      AloneInv (st w) (run fs st W l) w := by
    intro l
    induction l with
    | nil => intro _ W _ I; exact I
    | cons a l ih =>
      intro hl W C I
      have t := act_trans fs st W a
      have ha : a.who = w := hl a (by simp)
      rw [ha] at t
      exact ih (fun b hb => hl b (by simp [hb])) _ (C.trans t) (I.trans C hlim t)
  refine key as hby _ (coh_run fs st hist) ⟨?_, ?_, ?_, h0, ?_⟩ <;> rw [hw] <;>
    simp [PC.swept, PC.busy]

/-- A worker that acts alone (`as`) after any history of other workers (`hist`) calls the objective
only while the sum of the costs of the reports on disk is not at or above `max_cost_total = L`. -/
theorem C14_cost_below_limit (fs : String → Option PyFloat) (st : Nat → Settings)
    (hist as : List Act) (w : Nat) (L : PyFloat) (hh : OnlyBy (· ≠ w) hist)
    (hby : OnlyBy (· = w) as) (hL : (st w).maxCostTotal = some L)
    (hN : (st w).maxEvalsTotal = none) (id : String) (h : Handle Trial)
    (hev : ((run fs st {} (hist ++ as)).worker w).pc = .eval id h) :
    PyFloat.ge (costSum (run fs st {} (hist ++ as)).trials) L = false := by
  have I := alone_run (fs := fs) (st := st) hist as hh hby (by simp [Settings.hasGlobalLimit, hL])
    (by simp [hN])
  have := (I.busy (by rw [hev]; rfl)).1
  simpa [reached, hL] using this

/-- In terms of numbers: if the costs on disk add up to `c` and the limit is `l`, then `c < l`. -/
theorem C14_cost_below_limit_num (fs : String → Option PyFloat) (st : Nat → Settings)
    (hist as : List Act) (w : Nat) (l c : ℚ) (hh : OnlyBy (· ≠ w) hist)
    (hby : OnlyBy (· = w) as) (hL : (st w).maxCostTotal = some (.num l))
    (hN : (st w).maxEvalsTotal = none) (id : String) (h : Handle Trial)
    (hev : ((run fs st {} (hist ++ as)).worker w).pc = .eval id h)
    (hc : costSum (run fs st {} (hist ++ as)).trials = .num c) : c < l := by
  have := C14_cost_below_limit fs st hist as w _ hh hby hL hN id h hev
  rw [hc] at this
  exact PyFloat.not_ge_num.mp this

/-- A worker with cost limit 5 in its second evaluation, when 2 is spent. -/
example :
    let st : Nat → Settings := fun _ => { onError := .ignore, maxCostTotal := some (.num 5) }
    let W := run noFloat st {} (go 0 10 (withCost "1" (.num 2)) ++ go 0 9 (withCost "2" (.num 2)))
    (W.worker 0).pc.busy = true ∧ costSum W.trials = .num 2 ∧ (evaluations W.log).length = 1 := by
  decide +kernel

/-- A NaN cost switches the limit off: after costs NaN and 7 a worker with limit 5 starts another
evaluation. -/
theorem C14_nan_disables_limit :
    let st : Nat → Settings := fun _ => { onError := .ignore, maxCostTotal := some (.num 5) }
    let W := run noFloat st {} (go 0 10 (withCost "1" .nan) ++ go 0 12 (withCost "2" (.num 7)) ++
      go 0 11 (withCost "3" (.num 1)))
    W.trials.map trialCost = [.nan, .num 7, 0] ∧ (evaluations W.log).length = 2 ∧
    (W.worker 0).pc.busy = true := by decide +kernel

/-! ## C16 Life cycle of a trial -/

/-- The property as stated is false: after the double claim of `doubleEval` trial "1" is EVALUATING
and has a report. -/
theorem C16_life_cycle_fails :
    ((run noFloat free {} (go 0 4 (propose "1") ++ go 1 4 (propose "2") ++ go 0 3 (propose "1") ++
      go 1 2 (propose "2"))).stored "1").map (fun t => (t.state, t.report.isSome)) =
      some (.evaluating, true) := by decide +kernel

/-- If no trial is claimed from a copy that no longer said PENDING: at every moment each trial is
PENDING or EVALUATING without a report, or finished with the matching report. -/
theorem C16_life_cycle_partial (fs : String → Option PyFloat) (st : Nat → Settings)
    (as : List Act)
    (hclaims : ∀ c ∈ claims (run fs st {} as).log, c.2.2.state = .pending)
    (id : String) (t : Trial) (h : (run fs st {} as).stored id = some t) :
    ((t.state = .pending ∨ t.state = .evaluating) ∧ t.report = none) ∨
    ∃ r, t.report = some r ∧ r.trialId = id ∧
      (t.state = .success ∧ r.reportedAs = .success ∨ t.state = .failed ∧ r.reportedAs = .failed ∨
       t.state = .crashed ∧ r.reportedAs = .crashed) := by
  rcases lifeInv_run hclaims id t (stored_eq_some.mp h).2 with h | ⟨r, hr, hs, hid⟩
  · exact Or.inl h
  · refine Or.inr ⟨r, hr, hid, ?_⟩
    rw [hs]
    cases r.reportedAs <;> simp [ReportedAs.state]

/-- Under the same hypothesis a trial only moves forward
(PENDING → EVALUATING → finished), and does not change at all while its state does not. -/
theorem C16_moves_forward_partial (fs : String → Option PyFloat) (st : Nat → Settings)
    (as bs : List Act)
    (hclaims : ∀ c ∈ claims (run fs st {} (as ++ bs)).log, c.2.2.state = .pending)
    (id : String) (t : Trial) (h : (run fs st {} as).stored id = some t) :
    ∃ t', (run fs st {} (as ++ bs)).stored id = some t' ∧
      (t' = t ∨ t.state = .pending ∧ t'.state ≠ .pending ∨
       t.state = .evaluating ∧ t'.state ≠ .pending ∧ t'.state ≠ .evaluating) := by
  obtain ⟨⟨v, hv⟩, hd⟩ := stored_eq_some.mp h
  have C := coh_run fs st as
  rw [run_append] at hclaims ⊢
  obtain ⟨t', h1, hle, heq⟩ := run_forward C bs hclaims hd
  obtain ⟨t'', h1', hver, _⟩ := run_keeps (st := st) C bs hd
  refine ⟨t', stored_eq_some.mpr ⟨Option.isSome_iff_exists.mp (hver (by simp [hv])), h1⟩, ?_⟩
  by_cases e : stage t = stage t'
  · exact Or.inl (heq e)
  · right
    unfold stage at hle e
    revert hle e
    cases t.state <;> cases t'.state <;> simp

/-- The hypotheses are met by concurrent workers, one of them failing. -/
example :
    let W := run noFloat free {} (go 0 5 (failing "1") ++ go 1 9 (propose "2") ++
      go 0 10 (failing "3"))
    (∀ c ∈ claims W.log, c.2.2.state = .pending) ∧
    W.trials.map (fun t => (t.state, t.report.isSome)) =
      [(.crashed, true), (.success, true), (.pending, false)] := by decide +kernel

/-! ## C48 A lost claim race -/

/-- The property as stated is false: a worker that loses the race for its first trial dies of an
unbound variable. -/
theorem C48_lost_claim_fails :
    ((run noFloat free {} (go 0 4 (propose "1") ++ go 1 5 (propose "2") ++ go 0 1 (propose "1") ++
      go 1 1 (propose "2"))).worker 1).pc = .raised .unboundCounter := by decide +kernel

/-- A worker that has claimed a trial successfully before, and has been refused less than nine times
since, goes back to the top of its loop when a claim is refused. Missing: workers without a
successful claim, see `C48_lost_claim_fails`. -/
theorem C48_lost_claim_partial (fs : String → Option PyFloat) (st : Nat → Settings)
    (as : List Act) (w : Nat) (c : Choice) (id : String) (h : Handle Trial) (n : Nat)
    (hpc : ((run fs st {} as).worker w).pc = .claim id h)
    (hal : ((run fs st {} as).worker w).alive = true)
    (hlost : ((run fs st {} as).disk id).ver ≠ some h.ver)
    (hn : refusedSinceClaim w (run fs st {} as).log = some n) (hn9 : n < 9) :
    ((run fs st {} (as ++ [.step w c])).worker w).pc = .top ∧
    ((run fs st {} (as ++ [.step w c])).worker w).alive = true := by
  have hr := refuseInv_run fs st as w
  rw [hn, hpc] at hr
  simp only [reduceCtorEq, exists_false, or_false] at hr
  rw [run_append]
  simp only [run, List.foldl_cons, List.foldl_nil, act]
  have hal' := hal
  simp only [run] at hal' hr hpc hlost
  simp only [hal', if_true, stepW, hpc]
  have hput : ∀ x, Store.put x h ((List.foldl (act fs st) {} as).disk id) =
      (.error .mismatch, (List.foldl (act fs st) {} as).disk id) := by
    intro x
    unfold Store.put
    rw [if_neg (fun e => hlost e.symm)]
  rw [hput]
  simp only [hr]
  rw [if_neg (by omega)]
  simp

/-- The hypotheses are met: worker 1 evaluates trial "2", then both workers fetch trial "3" (sampled
by worker 2, which is killed) and worker 0 is faster. -/
example :
    let W := run noFloat free {} (go 1 8 (propose "2") ++ go 2 5 (propose "3") ++ [.kill 2] ++
      go 1 5 (propose "4") ++ go 1 1 ++ go 0 6 (propose "4") ++ go 0 1)
    (match (W.worker 1).pc with
      | .claim id h => (W.disk id).ver != some h.ver
      | _ => false) = true ∧
    (W.worker 1).alive = true ∧ refusedSinceClaim 1 W.log = some 0 := by decide +kernel

/-! ## C49 Restarting -/

/-- The property as stated is false: worker 0 is killed while evaluating the only trial; worker 1
finds one trial in progress and stops, without any report ever being stored. -/
theorem C49_restart_fails :
    let W := run noFloat (limited 1) {} (go 0 7 (propose "1") ++ [.kill 0] ++ go 1 9 (propose "2"))
    (W.worker 1).pc = .stopped .evalsTotal ∧ reports W.log = [] ∧
    W.trials.map (·.report) = [none] := by decide +kernel

/-- With `continue_until_max_evaluation_completed` (in-progress trials do not count), a worker that
acts alone after any history in which at most `N` trials were reported, and that stops because of
`max_evaluations_total = N`, leaves exactly `N` reported trials. Missing: the default setting, see
`C49_restart_fails`, and that the worker does stop. -/
theorem C49_restart_partial (fs : String → Option PyFloat) (st : Nat → Settings)
    (hist as : List Act) (w N : Nat) (hh : OnlyBy (· ≠ w) hist) (hby : OnlyBy (· = w) as)
    (hN : (st w).maxEvalsTotal = some N) (hinc : (st w).includeInProgress = false)
    (h0 : (run fs st {} hist).trials.countP (fun t => t.report.isSome) ≤ N)
    (hstop : ((run fs st {} (hist ++ as)).worker w).pc = .stopped .evalsTotal) :
    (run fs st {} (hist ++ as)).trials.countP (fun t => t.report.isSome) = N := by
  have I := alone_run (fs := fs) (st := st) hist as hh hby (by simp [Settings.hasGlobalLimit, hN])
    (by
      intro M hM
      rw [hN] at hM
      cases hM
      simpa [evalCount, hinc] using h0)
  have h1 := I.total N hN
  have h2 := I.halted hstop
  simp only [reachedN, hN, evalCount, hinc, decide_eq_true_eq, Bool.false_eq_true, if_false]
    at h1 h2
  omega

/-- Worker 0 is killed while evaluating; worker 1 does the remaining work. -/
example :
    let st : Nat → Settings := fun _ =>
      { onError := .ignore, maxEvalsTotal := some 1, includeInProgress := false }
    let W := run noFloat st {} (go 0 7 (propose "1") ++ [.kill 0] ++ go 1 20 (propose "2"))
    (W.worker 1).pc = .stopped .evalsTotal ∧ (reports W.log).length = 1 ∧
    W.trials.map (·.report.isSome) = [false, true] := by decide +kernel

end Neps.Run
