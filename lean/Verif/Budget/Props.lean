import Verif.Budget.Keep
import Verif.Bo.Model
import Verif.Run.Witness

/-!
# C137: what the optimizer is told about the budget
-/

namespace Neps.Budget

open Neps.Create (IVal)

/-- **C137.** After any history of calls of `neps.run`, requests and reports, by any number of
processes and with any optimizer: whatever the optimizer is told at a request is the limits of the
very first call of `neps.run`, the sum of the costs that were charged, and 0 evaluations. In
particular an optimizer can never change what it is told, and a request that raised, or whose state
could not be stored, changes nothing. -/
theorem C137_told (h : List (Nat × Op)) (p : Nat) (reply : Option BudgetInfo → Reply)
    (b : Option BudgetInfo) (hb : .told b ∈ (step (run {} h).1 p (.ask reply)).2) :
    ∃ mc me, firstLimits h = some (mc, me) ∧ b = some ⟨mc, used (run {} h).2, me, 0⟩ := by
  have key : ∃ x, sync (run {} h).1 p = some x ∧ b = x.cur.budget := by
    simp only [step] at hb
    split at hb
    · simp at hb
    · split at hb
      · simp at hb
      · rename_i x hx
        refine ⟨x, hx, ?_⟩
        split at hb
        · simpa using hb
        · simpa using hb
        · split at hb <;> simpa using hb
        · split at hb <;> simpa using hb
  obtain ⟨x, hx, rfl⟩ := key
  obtain ⟨⟨mc, me⟩, v, -, e2, -, e4, -⟩ := (inv_run h).synced hx
  exact ⟨mc, me, e2, e4⟩

/-- **C137**, the part about the limits that holds: if every call of `neps.run` on the directory has
the same limits, these are what the optimizer is told. Missing: see `C137_other_limit_fails` and
`C137_used_evaluations_fails`. -/
theorem C137_limits_partial (h : List (Nat × Op)) (mc : Option PyFloat) (me : Option Int)
    (hl : AllLimits mc me h) (p : Nat) (reply : Option BudgetInfo → Reply)
    (b : Option BudgetInfo) (hb : .told b ∈ (step (run {} h).1 p (.ask reply)).2) :
    ∃ x, b = some x ∧ x.maxCost = mc ∧ x.maxEvals = me ∧ x.usedCost = used (run {} h).2 := by
  obtain ⟨mc', me', h1, rfl⟩ := C137_told h p reply b hb
  have : mc' = mc ∧ me' = me := by
    clear hb
    induction h with
    | nil => simp [firstLimits] at h1
    | cons y h ih =>
      rcases y with ⟨q, _ | _ | _⟩
      · simp only [firstLimits, Option.some.injEq, Prod.mk.injEq] at h1
        obtain ⟨rfl, rfl⟩ := h1
        exact hl q _ _ (by simp)
      all_goals
        exact ih (fun a b c d => hl a b c (by simp [d])) (by simpa [firstLimits] using h1)
  exact ⟨_, rfl, this.1, this.2, rfl⟩

/-- **C137.** If nothing the optimizer wants to keep is unstorable, then every stored report reached
the budget, in the order of the reports. -/
theorem C137_all_charged (h : List (Nat × Op)) (k : Keepable h) : AllCharged (run {} h).2 := by
  induction h using List.reverseRecOn with
  | nil => simp [run, AllCharged]
  | append_singleton h x ih =>
    obtain ⟨p, op⟩ := x
    have ih := ih k.split.1
    rw [run_append]
    by_cases hL : Launched p h
    · obtain ⟨l, -, e⟩ := last_shown h p op k hL
      simp only [AllCharged, e, List.filterMap_append] at ih ⊢
      rw [ih]
      congr 1
      cases op with
      | launch _ _ => rfl
      | report _ => rfl
      | ask reply =>
        simp only [shown]
        split <;> rfl
    · simp only [last_not_launched h p op k hL, List.append_nil]
      exact ih

/-- **C137.** If nothing the optimizer wants to keep is unstorable, a process that has called
`neps.run` gets the optimizer called at every request: no request fails because of the stored
state. -/
theorem C137_is_told (h : List (Nat × Op)) (k : Keepable h) (p : Nat) (hL : Launched p h)
    (reply : Option BudgetInfo → Reply) :
    ∃ b, Event.told b ∈ (step (run {} h).1 p (.ask reply)).2 := by
  obtain ⟨l, hl⟩ := launched_limits hL
  have I := inv_run h
  have G := good_run h k
  have hp := (G.handle p).2 hL
  obtain ⟨x, hx⟩ := I.sync_ok G.file hp
  obtain ⟨y, hy⟩ := Option.isSome_iff_exists.1 hp
  refine ⟨x.cur.budget, ?_⟩
  simp only [step, hy, hx]
  split
  · simp
  · simp
  · split <;> simp
  · split <;> simp

/-- **C137.** Storing and loading: a state whose kept part can be stored is read back with the same
budget; the kept part is read back as YAML returns it, and as `{}` if it is empty or false. -/
theorem C137_round_trip (s : OptState) (v : IVal) (h : s.shared.stored = some v) :
    (write s).2 = false ∧
      read (write s).1 = some ⟨s.budget, if truthy v then v else .dict []⟩ := by
  obtain ⟨f, h1, -, h2⟩ := write_ok s h
  rw [h1]
  exact ⟨rfl, h2⟩

/-- **C137, the documented shared state is not delivered.** "Any information the optimizer wants to
store between calls" is stored, but has no effect at all: everything that can be seen, in any
history, is the same with an optimizer that keeps nothing. -/
theorem C137_shared_state_fails (h : List (Nat × Op)) (k : Keepable h) :
    (run {} h).2 = (run {} (forget h)).2 := by
  induction h using List.reverseRecOn with
  | nil => rfl
  | append_singleton h x ih =>
    obtain ⟨p, op⟩ := x
    have ih := ih k.split.1
    have e : forget (h ++ [(p, op)]) = forget h ++ [(p, op.forget)] := by simp [forget]
    rw [e, run_append, run_append]
    have k' := keepable_forget (h ++ [(p, op)])
    rw [e] at k'
    simp only [ih]
    congr 1
    by_cases hL : Launched p h
    · obtain ⟨l, h1, h2⟩ := last_shown h p op k hL
      obtain ⟨l', h1', h2'⟩ := last_shown _ p _ k' ((launched_forget p h).2 hL)
      rw [firstLimits_forget, h1] at h1'
      obtain rfl := Option.some.inj h1'
      rw [h2, h2', ih]
      cases op with
      | launch _ _ => rfl
      | report _ => rfl
      | ask reply =>
        simp only [shown, Op.forget]
        cases reply (some (truth l (run {} (forget h)).2)) <;> rfl
    · rw [last_not_launched h p op k hL,
        last_not_launched _ p _ k' (fun h' => hL ((launched_forget p h).1 h'))]

/-- An optimizer that returns a configuration. -/
def plainAsk : Op := .ask fun _ => .config

/-- Two processes, an optimizer that keeps a list, costs 3 and 4.5. -/
def sample : List (Nat × Op) :=
  [(0, .launch (some (.num 10)) (some 20)), (1, .launch (some (.num 10)) (some 20)),
    (0, .ask fun _ => .configAnd (.dict [("seen", .list [.int 1, .float (.num 2)])])),
    (1, plainAsk), (1, .report (some (.num 3))), (0, .ask fun _ => .raises),
    (0, .report (some (.num (9/2)))), (1, .report none)]

/-- Hypotheses of `C137_told` and `C137_limits_partial`: process 1 asks after `sample`. -/
example : Event.told (some ⟨some (.num 10), .num (15/2), some 20, 0⟩) ∈
    (step (run {} sample).1 1 plainAsk).2 := by decide +kernel

example : AllLimits (some (.num 10)) (some 20) sample := by
  intro p mc me h
  simp [sample, plainAsk] at h
  rcases h with h | h <;> exact ⟨h.2.1, h.2.2⟩

/-- Hypotheses of `C137_all_charged`, `C137_is_told` and `C137_shared_state_fails`. -/
example : Keepable sample := by
  intro p reply h b keep hr
  simp only [sample, plainAsk, List.mem_cons, Prod.mk.injEq, Op.ask.injEq, reduceCtorEq,
    List.not_mem_nil, and_false, false_or, or_false] at h
  rcases h with ⟨-, rfl⟩ | ⟨-, rfl⟩ | ⟨-, rfl⟩
  · simp only [Reply.configAnd.injEq] at hr
    subst hr
    simp [IVal.HasObj, IVal.HasObjDict, IVal.HasObjList]
  · simp at hr
  · simp at hr

example : Launched 1 sample ∧ evaluations (run {} sample).2 = 3 :=
  ⟨⟨some (.num 10), some 20, by simp [sample]⟩, by decide +kernel⟩

/-- The run with `max_cost_total=10` used 8; it is continued with `max_cost_total=20`, and the next
evaluation costs 4. -/
def continued : List (Nat × Op) :=
  [(0, .launch (some (.num 10)) none), (0, plainAsk), (0, .report (some (.num 8))),
    (1, .launch (some (.num 20)) none), (1, plainAsk), (1, .report (some (.num 4)))]

/-- **C137 fails for a run that is continued with another limit**: the optimizer is told the limit
of the first run for ever. Bayesian optimization with `use_cost=True` then divides 12 by 10 and
raises an `AssertionError` instead of proposing a configuration, whatever the evaluations are, with
8 of the 20 still to be used. -/
theorem C137_other_limit_fails :
    Event.told (some ⟨some (.num 10), .num 12, none, 0⟩) ∈
        (step (run {} continued).1 1 plainAsk).2 ∧
      (1, Op.launch (some (.num 20)) none) ∈ continued ∧
      ∀ (x : List (List ℝ)) (costs : List (Option ℝ)),
        Verif.Bo.costRound (some ((12 : ℝ), some (10 : ℝ))) x costs = none := by
  refine ⟨by decide +kernel, by simp [continued], ?_⟩
  intro x costs
  have : ¬ ((12 : ℝ) ≤ 10) := by norm_num
  unfold Verif.Bo.costRound
  simp only
  rcases hf : Verif.Space.fdiv 12 10 with _ | q
  · rfl
  · have hq : q = 12 / 10 := by
      simpa [Verif.Space.fdiv, eq_comm] using hf
    subst hq
    have : Verif.Bo.coolingAlpha (12 / 10) = none := by
      unfold Verif.Bo.coolingAlpha
      rw [if_neg]
      norm_num
    simp [this]

/-- **C137 fails for the number of evaluations**: three evaluations were reported, and the optimizer
is told that none were used. -/
theorem C137_used_evaluations_fails :
    ∃ b, Event.told (some b) ∈ (step (run {} sample).1 1 plainAsk).2 ∧
      b.usedEvals ≠ evaluations (run {} sample).2 :=
  ⟨⟨some (.num 10), .num (15/2), some 20, 0⟩, by decide +kernel, by decide +kernel⟩

/-- An optimizer wants to keep an object that YAML cannot represent. -/
def unstorable : List (Nat × Op) :=
  [(0, .launch (some (.num 10)) none), (0, plainAsk), (0, .report (some (.num 3))),
    (0, .ask fun _ => .configAnd (.dict [("model", .obj 0)]))]

/-- **C137 fails for a state that cannot be stored**: the request raises, but its trial was stored;
the state file is left empty, so that no process can join the run any more; the process itself goes
on with its own copy, and its next report brings the file back. -/
theorem C137_unstorable_fails :
    (run {} unstorable).2.count .created = 2 ∧
      (∀ p mc me, p ≠ 0 → (step (run {} unstorable).1 p (.launch mc me)).2 = [.raised]) ∧
      Event.told (some ⟨some (.num 10), .num 3, none, 0⟩) ∈
        (step (run {} unstorable).1 0 plainAsk).2 ∧
      ∀ p mc me, (step (run {} (unstorable ++ [(0, .report none)])).1 p (.launch mc me)).2 = [] := by
  refine ⟨by decide +kernel, ?_, by decide +kernel, ?_⟩
  · intro p mc me _
    have h1 : (run {} unstorable).1.ver.isSome = true := by decide +kernel
    have h2 : (read (run {} unstorable).1.file).isNone = true := by decide +kernel
    obtain ⟨v, h1⟩ := Option.isSome_iff_exists.1 h1
    rw [Option.isNone_iff_eq_none] at h2
    simp [step, open', h1, h2]
  · intro p mc me
    have h1 : (run {} (unstorable ++ [(0, .report none)])).1.ver.isSome = true := by
      decide +kernel
    have h2 : (read (run {} (unstorable ++ [(0, .report none)])).1.file).isSome = true := by
      decide +kernel
    obtain ⟨v, h1⟩ := Option.isSome_iff_exists.1 h1
    obtain ⟨s, h2⟩ := Option.isSome_iff_exists.1 h2
    simp [step, open', h1, h2]

/-- **C137.** A call of `neps.run` that raises is without consequences for the others: whatever
another process does next shows the same as if the call had not been made. The process of the call
itself does nothing more. -/
theorem C137_failed_join (h : List (Nat × Op)) (p : Nat) (mc : Option PyFloat) (me : Option Int)
    (hr : Event.raised ∈ (step (run {} h).1 p (.launch mc me)).2) :
    (∀ q op, q ≠ p → (step (step (run {} h).1 p (.launch mc me)).1 q op).2 =
      (step (run {} h).1 q op).2) ∧
    (∀ reply, (step (step (run {} h).1 p (.launch mc me)).1 p (.ask reply)).2 = []) ∧
    ∀ cost, (step (step (run {} h).1 p (.launch mc me)).1 p (.report cost)).2 = [] := by
  have key : (step (run {} h).1 p (.launch mc me)).1 =
      { (run {} h).1 with handle := fun q => if q = p then none else (run {} h).1.handle q } := by
    generalize (run {} h).1 = W at hr ⊢
    obtain ⟨f, hw, -, -⟩ := write_ok (launchState mc me) (v := .dict []) rfl
    cases hv : W.ver with
    | none => simp [step, open', hv, hw] at hr
    | some v =>
      cases hf : read W.file with
      | some s => simp [step, open', hv, hf] at hr
      | none => simp [step, open', hv, hf]
  rw [key]
  generalize (run {} h).1 = W
  refine ⟨?_, fun reply => by simp [step], fun cost => by simp [step]⟩
  intro q op hq
  have hs : sync { W with handle := fun q => if q = p then none else W.handle q } q = sync W q := by
    simp [sync, hq]
  have hput : ∀ cur s, (put { W with handle := fun q => if q = p then none else W.handle q } q cur s).2
      = (put W q cur s).2 := by
    intro cur s
    unfold put
    rcases write s with ⟨f, _ | _⟩
    · rfl
    · cases W.ver <;> rfl
  have pick : ∀ (a b : World × Bool) (x y : List Event), a.2 = b.2 →
      (match a with | (W, true) => (W, x) | (W, false) => (W, y) : World × List Event).2 =
        (match b with | (W, true) => (W, x) | (W, false) => (W, y) : World × List Event).2 := by
    rintro ⟨a, _ | _⟩ ⟨b, _ | _⟩ x y h <;> first | rfl | cases h
  cases op with
  | launch mc' me' =>
    obtain ⟨f, hw, -, -⟩ := write_ok (launchState mc' me') (v := .dict []) rfl
    cases hv : W.ver with
    | none => simp [step, open', hv, hw]
    | some v =>
      cases hf : read W.file <;> simp [step, open', hv, hf]
  | ask reply =>
    simp only [step, hs, if_neg hq]
    cases W.handle q with
    | none => rfl
    | some _ =>
      cases sync W q with
      | none => rfl
      | some x =>
        simp only
        cases reply x.cur.budget with
        | raises => rfl
        | unusable => rfl
        | config => exact pick _ _ _ _ (hput _ _)
        | configAnd keep => exact pick _ _ _ _ (hput _ _)
  | report cost =>
    simp only [step, hs, if_neg hq]
    cases W.handle q with
    | none => rfl
    | some _ =>
      cases sync W q with
      | none => rfl
      | some x => exact pick _ _ _ _ (hput _ _)

/-- Hypotheses of `C137_failed_join`: after `unstorable`, process 1 cannot join, and process 0 can
still report. -/
example : Event.raised ∈ (step (run {} unstorable).1 1 (.launch none none)).2 ∧
    (step (step (run {} unstorable).1 1 (.launch none none)).1 0 (.report (some (.num 1)))).2 =
      [.reported (some (.num 1)), .charged (some (.num 1))] := by
  refine ⟨by decide +kernel, by decide +kernel⟩

/-- The settings of workers started with `max_cost_total=10`. -/
def ten : Nat → Run.Settings := fun _ => { onError := .ignore, maxCostTotal := some (.num 10) }

/-- Worker 0 evaluates a trial of cost 12. Worker 1 compares the total with its limit before the
report of worker 0, and asks the optimizer after it. -/
def late : List Run.Act :=
  Run.go 0 7 (Run.withCost "1" (.num 12)) ++ Run.go 1 7 (Run.withCost "2" (.num 1)) ++
    Run.go 0 3 (Run.withCost "1" (.num 12))

/-- **C137 fails for two workers**: a worker can ask the optimizer with more than the limit already
used, 12 of 10, because the limit was checked before the last report of another worker (the two
steps are separate in the model of the workers, `Verif.Run.Model`). With `use_cost=True` that worker
ends with an `AssertionError` instead of stopping (`C137_other_limit_fails`, last part). -/
theorem C137_two_workers_fails :
    ((Run.run Run.noFloat ten {} late).worker 1).pc = .sample ∧
      ((Run.run Run.noFloat ten {} late).worker 1).alive = true ∧
      (Run.run Run.noFloat ten {} late).budget = .num 12 := by
  refine ⟨by decide +kernel, by decide +kernel, by decide +kernel⟩

end Neps.Budget
