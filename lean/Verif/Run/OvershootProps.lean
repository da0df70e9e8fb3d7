import Verif.Run.Overshoot
import Verif.Run.Props

/-!
# C117: how far a limit on a total can be overrun

`max_cost_total` and `max_evaluation_time_total_seconds` are compared with a sum over the reports on
disk, before each evaluation. Evaluations already under way, or about to begin, are not counted, so
the limit can be overrun. These theorems say by how much: one evaluation per worker.
-/

namespace Neps.Run

/-- All reports stored so far have no cost, or one that is a number and not negative. -/
def CostsNonneg (log : List Event) : Prop :=
  ∀ p ∈ reports log, p.2.cost = none ∨ ∃ x : ℚ, 0 ≤ x ∧ p.2.cost = some (.num x)

/-- All reports stored so far have no duration, or one that is a number and not negative. -/
def TimesNonneg (log : List Event) : Prop :=
  ∀ p ∈ reports log, p.2.evaluationDuration = none ∨
    ∃ x : ℚ, 0 ≤ x ∧ p.2.evaluationDuration = some (.num x)

theorem CostsNonneg.contributes {log} (h : CostsNonneg log) :
    Contributes (fun r => r.cost.getD 0) log := by
  intro p hp
  rcases h p hp with e | ⟨x, h0, e⟩
  · exact ⟨0, le_refl _, by simp [e, PyFloat.zero_def]⟩
  · exact ⟨x, h0, by simp [e]⟩

theorem TimesNonneg.contributes {log} (h : TimesNonneg log) :
    Contributes (fun r => r.evaluationDuration.getD 0) log := by
  intro p hp
  rcases h p hp with e | ⟨x, h0, e⟩
  · exact ⟨0, le_refl _, by simp [e, PyFloat.zero_def]⟩
  · exact ⟨x, h0, by simp [e]⟩

theorem trialCost_measure : trialCost = measure (fun r => r.cost.getD 0) := by
  funext t; unfold trialCost measure; cases t.report <;> rfl

theorem trialTime_measure : trialTime = measure (fun r => r.evaluationDuration.getD 0) := by
  funext t; unfold trialTime measure; cases t.report <;> rfl

theorem globalCheck_cost {s : Settings} {l : ℚ} (hL : s.maxCostTotal = some (.num l))
    (seen : List Trial) (h : globalCheck s seen = none) :
    PyFloat.ge ((seen.map (measure (fun r => r.cost.getD 0))).sum) (.num l) = false := by
  rw [← trialCost_measure]
  unfold globalCheck at h
  split at h
  · simp at h
  · split at h
    · simp at h
    · next h1 => simpa [reached, hL, costSum] using h1

theorem globalCheck_time {s : Settings} {l : ℚ} (hL : s.maxEvalTimeTotal = some (.num l))
    (seen : List Trial) (h : globalCheck s seen = none) :
    PyFloat.ge ((seen.map (measure (fun r => r.evaluationDuration.getD 0))).sum) (.num l) =
      false := by
  rw [← trialTime_measure]
  unfold globalCheck at h
  split at h
  · simp at h
  · split at h
    · simp at h
    · split at h
      · simp at h
      · next h1 => simpa [reached, hL] using h1

/-- The calls of all workers are the calls of the workers one by one. -/
theorem calls_total (l : List (Nat × String)) (k : Nat) (h : ∀ p ∈ l, p.1 < k) :
    l.length = ((List.range k).map (fun w => l.countP (fun p => p.1 == w))).sum := by
  induction l with
  | nil => simp
  | cons p l ih =>
    have hp := h p (by simp)
    rw [List.length_cons, ih (fun p' hp' => h p' (by simp [hp']))]
    have : ∀ (r : List Nat), r.Nodup → (r.map (fun w => (p :: l).countP (fun p => p.1 == w))).sum =
        (r.map (fun w => l.countP (fun p => p.1 == w))).sum + (if p.1 ∈ r then 1 else 0) := by
      intro r hr
      induction r with
      | nil => simp
      | cons a r ihr =>
        rw [List.nodup_cons] at hr
        rw [List.map_cons, List.sum_cons, ihr hr.2, List.map_cons, List.sum_cons, List.countP_cons]
        by_cases e : p.1 = a
        · subst e
          simp only [beq_self_eq_true, if_true, hr.1, if_false, List.mem_cons, true_or]
          omega
        · have : ¬ (p.1 == a) = true := by simpa using e
          simp only [List.mem_cons, e, false_or, if_neg this]
          omega
    rw [this _ List.nodup_range]
    simp [hp]

theorem evaluations_by (fs st) (as : List Act) (k : Nat) (hby : OnlyBy (· < k) as) :
    ∀ p ∈ evaluations (run fs st {} as).log, p.1 < k := by
  have key : ∀ (l : List Act), OnlyBy (· < k) l → ∀ W : World,
      (∀ p ∈ evaluations W.log, p.1 < k) → ∀ p ∈ evaluations (run fs st W l).log, p.1 < k := by
    intro l
    induction l with
    | nil => intro _ W h; exact h
    | cons a l ih =>
      intro hl W h
      refine ih (fun b hb => hl b (by simp [hb])) _ ?_
      have ha : a.who < k := hl a (by simp)
      have t := act_trans fs st W a
      generalize act fs st W a = W' at t
      cases t with
      | idle => exact h
      | kill => exact h
      | torn => exact h
      | step c _ hal s =>
        cases s <;> try simp only [emit_log, goto_log, setW_log, setDisk_log, evaluations]
        all_goals first
          | exact h
          | (intro p hp
             rcases List.mem_cons.mp hp with rfl | hp
             · exact ha
             · exact h p hp)
  exact key as hby {} (by simp [evaluations])

theorem total_of_each {fs st} (as bs : List Act) (k : Nat) (b : Nat → Bool)
    (hby : OnlyBy (· < k) (as ++ bs))
    (h : ∀ w < k, callsBy (run fs st {} (as ++ bs)).log w ≤
      callsBy (run fs st {} as).log w + if b w then 0 else 1) :
    (evaluations (run fs st {} (as ++ bs)).log).length ≤
      (evaluations (run fs st {} as).log).length + (List.range k).countP (fun w => !b w) := by
  rw [calls_total _ k (evaluations_by fs st _ k hby), calls_total _ k
    (evaluations_by fs st as k (fun a ha => hby a (by simp [ha])))]
  have : ∀ j ≤ k, ((List.range j).map (fun w => (evaluations (run fs st {} (as ++ bs)).log).countP
        (fun p => p.1 == w))).sum ≤
      ((List.range j).map (fun w => (evaluations (run fs st {} as).log).countP
        (fun p => p.1 == w))).sum + (List.range j).countP (fun w => !b w) := by
    intro j
    induction j with
    | zero => simp
    | succ j ih =>
      intro hj
      have h1 := ih (by omega)
      have h2 := h j (by omega)
      unfold callsBy at h2
      simp only [List.range_succ, List.map_append, List.sum_append, List.map_cons, List.map_nil,
        List.sum_cons, List.sum_nil, List.countP_append, List.countP_cons, List.countP_nil]
      cases hb : b j <;> simp [hb] at h2 ⊢ <;> omega
  exact this k (le_refl _)

/-- Once the costs of the reports on disk add up to `max_cost_total` (after `as`), a worker calls the
objective at most once more, and not at all if it has still to begin its check, whatever the workers
do from then on (`bs`). Negative or undefined costs, and a claim of a trial that had already been
claimed (C07), are excluded. -/
theorem C117_overshoot_each_partial (fs : String → Option PyFloat) (st : Nat → Settings) (as bs : List Act)
    (w : Nat) (l c : ℚ) (hL : (st w).maxCostTotal = some (.num l))
    (hclaims : ∀ x ∈ claims (run fs st {} (as ++ bs)).log, x.2.2.state = .pending)
    (hcost : CostsNonneg (run fs st {} (as ++ bs)).log)
    (hc : costSum (run fs st {} as).trials = .num c) (hl : l ≤ c) :
    callsBy (run fs st {} (as ++ bs)).log w ≤ callsBy (run fs st {} as).log w +
      if ((run fs st {} as).worker w).pc.checksFirst then 0 else 1 := by
  have hg : (st w).hasGlobalLimit = true := by simp [Settings.hasGlobalLimit, hL]
  rw [costSum, trialCost_measure] at hc
  split
  · next hpc =>
    exact le_of_eq (overshoot_none as bs w hg (globalCheck_cost hL) hclaims hcost.contributes hc hl
      hpc)
  · exact overshoot as bs w hg (globalCheck_cost hL) hclaims hcost.contributes hc hl

/-- So after the costs on disk have reached the limit the objective is called at most as often as
there are workers that had already begun their check, among the `k` workers. -/
theorem C117_overshoot_total_partial (fs : String → Option PyFloat) (st : Nat → Settings)
    (as bs : List Act) (k : Nat) (l c : ℚ) (hby : OnlyBy (· < k) (as ++ bs))
    (hL : ∀ w < k, (st w).maxCostTotal = some (.num l))
    (hclaims : ∀ x ∈ claims (run fs st {} (as ++ bs)).log, x.2.2.state = .pending)
    (hcost : CostsNonneg (run fs st {} (as ++ bs)).log)
    (hc : costSum (run fs st {} as).trials = .num c) (hl : l ≤ c) :
    (evaluations (run fs st {} (as ++ bs)).log).length ≤
      (evaluations (run fs st {} as).log).length +
        (List.range k).countP (fun w => !((run fs st {} as).worker w).pc.checksFirst) :=
  total_of_each as bs k _ hby
    (fun w hw => C117_overshoot_each_partial fs st as bs w l c (hL w hw) hclaims hcost hc hl)

/-- The same for `max_evaluation_time_total_seconds`. -/
theorem C117_time_overshoot_partial (fs : String → Option PyFloat) (st : Nat → Settings)
    (as bs : List Act) (k : Nat) (l c : ℚ) (hby : OnlyBy (· < k) (as ++ bs))
    (hL : ∀ w < k, (st w).maxEvalTimeTotal = some (.num l))
    (hclaims : ∀ x ∈ claims (run fs st {} (as ++ bs)).log, x.2.2.state = .pending)
    (htime : TimesNonneg (run fs st {} (as ++ bs)).log)
    (hc : ((run fs st {} as).trials.map trialTime).sum = .num c) (hl : l ≤ c) :
    (evaluations (run fs st {} (as ++ bs)).log).length ≤
      (evaluations (run fs st {} as).log).length +
        (List.range k).countP (fun w => !((run fs st {} as).worker w).pc.checksFirst) := by
  rw [trialTime_measure] at hc
  refine total_of_each as bs k _ hby (fun w hw => ?_)
  have hg : (st w).hasGlobalLimit = true := by simp [Settings.hasGlobalLimit, hL w hw]
  split
  · next hpc =>
    exact le_of_eq (overshoot_none as bs w hg (globalCheck_time (hL w hw)) hclaims
      htime.contributes hc hl hpc)
  · exact overshoot as bs w hg (globalCheck_time (hL w hw)) hclaims htime.contributes hc hl

/-- Settings with a limit of 5 on the total cost. -/
def costLimit : Nat → Settings := fun _ => { onError := .ignore, maxCostTotal := some (.num 5) }

/-- Settings with a limit of 2 on the total evaluation time. -/
def timeLimit : Nat → Settings :=
  fun _ => { onError := .ignore, maxEvalTimeTotal := some (.num 2) }

/-- Workers 1 and 2 have found no pending trial when worker 0 reports cost 7. -/
def costRace : List Act :=
  go 1 5 (withCost "2" (.num 1)) ++ go 2 5 (withCost "3" (.num 1)) ++
    go 0 9 (withCost "1" (.num 7))

/-- Then everybody goes on. -/
def costRaceOn : List Act :=
  go 1 20 (withCost "2" (.num 1)) ++ go 2 20 (withCost "3" (.num 1)) ++
    go 0 20 (withCost "4" (.num 7))

/-- The hypotheses are met and the bound is attained: when the limit of 5 is passed, two of the three
workers have begun their check, and the objective is called twice more. -/
example :
    let W := run noFloat costLimit {} costRace
    let W' := run noFloat costLimit {} (costRace ++ costRaceOn)
    OnlyBy (· < 3) (costRace ++ costRaceOn) ∧
    (claims W'.log).all (fun x => x.2.2.state == .pending) = true ∧
    (reports W'.log).map (fun p => p.2.cost) = [some (.num 1), some (.num 1), some (.num 7)] ∧
    costSum W.trials = .num 7 ∧
    (List.range 3).countP (fun w => !(W.worker w).pc.checksFirst) = 2 ∧
    (evaluations W.log).length = 1 ∧ (evaluations W'.log).length = 3 := by
  unfold OnlyBy
  decide +kernel

/-- The same schedule with a limit on the evaluation time. -/
example :
    let W := run noFloat timeLimit {} costRace
    let W' := run noFloat timeLimit {} (costRace ++ costRaceOn)
    (claims W'.log).all (fun x => x.2.2.state == .pending) = true ∧
    (reports W'.log).map (fun p => p.2.evaluationDuration) =
      [some (.num 2), some (.num 2), some (.num 2)] ∧
    (W.trials.map trialTime).sum = .num 2 ∧
    (List.range 3).countP (fun w => !(W.worker w).pc.checksFirst) = 2 ∧
    (evaluations W.log).length = 1 ∧ (evaluations W'.log).length = 3 := by
  decide +kernel

/-- With a second claim of the same trial (C07) it can be more: worker 1 saw trial "1" pending before
worker 0 evaluated it, evaluates it again and replaces the report, whose cost of 7 is then gone; with
1 left it evaluates yet another trial. -/
theorem C117_overshoot_fails :
    let as := go 0 6 (withCost "1" (.num 7)) ++ go 1 6 (withCost "1" (.num 1)) ++
      go 0 3 (withCost "1" (.num 7))
    let bs := go 1 20 (withCost "2" (.num 1))
    let W := run noFloat costLimit {} as
    let W' := run noFloat costLimit {} (as ++ bs)
    costSum W.trials = .num 7 ∧ callsBy W.log 1 = 0 ∧ callsBy W'.log 1 = 2 := by
  decide +kernel

end Neps.Run
