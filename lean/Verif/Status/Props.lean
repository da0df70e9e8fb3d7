import Verif.Status.Lemmas
import Verif.Run.Life
import Verif.Run.Witness
import Mathlib.Data.List.Sort

/-!
# C40, C70: the status of a run

The summary a user gets from `neps.status` and the CSV files written after a run.
-/

namespace Neps.Status

/-! ## C40: the summary -/

/-- **C40 (partial)**: the numbers of evaluated and of failed trials, and the list of results, are
right. Missing: the number of pending trials (`C40_pending_fails`). -/
theorem C40_counts_partial (fs : String → Option PyFloat) (trials : List (String × Trial))
    (s : Summary) (hk : ById trials) (hl : ∀ p ∈ trials, HasLoss p.2)
    (h : summarize fs trials = .ok s) :
    s.numEvaluated = trials.countP (fun p => isEvaluated p.2) ∧
    s.numError = trials.countP (fun p => isFailed p.2) ∧
    s.previousResults.map Prod.fst =
      (trials.filter (fun p => isEvaluated p.2)).map Prod.fst ∧
    s.previousResults.map (fun q => (q.2.id, q.2.config, q.2.metadata)) =
      (trials.filter (fun p => isEvaluated p.2)).map (fun p => (p.1, p.2.config, p.2.metadata)) := by
  obtain ⟨l, hf, rfl⟩ := summarize_ok h hk hl
  refine ⟨?_, ?_, ?_, ?_⟩
  · simp only
    rw [← hf.length_eq, List.countP_eq_length_filter]
  · simpa using foldl_errors trials {}
  · clear h
    simp only
    generalize trials.filter (fun p => isEvaluated p.2) = ts at hf
    induction hf with
    | nil => rfl
    | cons h _ ih => obtain ⟨r, res, _, _, rfl⟩ := h; simp [ih]
  · clear h
    simp only
    generalize trials.filter (fun p => isEvaluated p.2) = ts at hf
    induction hf with
    | nil => rfl
    | cons h _ ih => obtain ⟨r, res, _, _, rfl⟩ := h; simp [ih]

/-- **C40**: the summary names the first trial with the smallest loss among the successful ones,
with its configuration. -/
theorem C40_best (fs : String → Option PyFloat) (trials : List (String × Trial))
    (s : Summary) (hk : ById trials) (hl : ∀ p ∈ trials, HasLoss p.2)
    (h : summarize fs trials = .ok s) : BestIsRight trials s := by
  obtain ⟨l, hf, rfl⟩ := summarize_ok h hk hl
  exact right_foldl trials

/-- **C40**: the summary can be computed if every `info_dict` the objective returned is a
dictionary. -/
theorem C40_succeeds (fs : String → Option PyFloat) (trials : List (String × Trial))
    (hk : ById trials) (hl : ∀ p ∈ trials, HasLoss p.2) (hi : ∀ p ∈ trials, InfoIsDict p.2) :
    ∃ s, summarize fs trials = .ok s :=
  summarize_isOk hk hl hi

/-- **C40 fails**: the number of pending trials in the summary is zero whatever the trials are, and
the lists of pending configurations are empty. -/
theorem C40_pending_fails (fs : String → Option PyFloat) (trials : List (String × Trial))
    (s : Summary) (h : summarize fs trials = .ok s) :
    s.numPending = 0 ∧ s.numPendingWithWorker = 0 ∧ s.pendingConfigs = [] ∧
      s.pendingConfigsFree = [] := by
  unfold summarize at h
  split at h
  · simp at h
  · split at h
    · simp at h
    · simp only [Except.ok.injEq, inState_nil] at h
      subst h
      simp

/-- A trial that waits to be evaluated. -/
def waiting : Trial := Trial.new "1" [("x", .int 3)] "config_1" none none (.num 0) "w"

/-- A successful trial with the given loss. -/
def done (id : String) (x : PyFloat) : Trial :=
  { Trial.new id [("x", .int 4)] ("config_" ++ id) none none (.num 0) "w" with
    state := .success
    report := some { trialId := id, loss := some x, cost := none, learningCurve := none, extra := [],
                     err := none, tb := none, reportedAs := .success,
                     evaluationDuration := some (.num 1) } }

/-- A crashed trial. -/
def crashed (id : String) : Trial :=
  { Trial.new id [("x", .int 5)] ("config_" ++ id) none none (.num 0) "w" with
    state := .crashed
    report := some { trialId := id, loss := none, cost := none, learningCurve := none, extra := [],
                     err := some ⟨"ValueError", "boom", true⟩, tb := some "", reportedAs := .crashed,
                     evaluationDuration := some (.num 1) } }

/-- Two trials of the same run are waiting, and the summary speaks of none. -/
example : (summarize (fun _ => none) [("1", waiting), ("2", done "2" (.num 7))]).map
    (fun s => (s.numEvaluated, s.numPending)) = .ok (1, 0) := by decide +kernel

/-- The hypotheses are met by a run with a crash, a tie, a NaN and a waiting trial; the first of the
two best trials is reported. -/
example :
    ((summarize (fun _ => none) [("1", waiting), ("2", done "2" .nan), ("3", crashed "3"),
      ("4", done "4" (.num 7)), ("5", done "5" (.num 7)), ("6", done "6" .pinf)]).map
      (fun s => (s.numEvaluated, s.numError, s.bestId, s.bestLoss))
      = .ok (5, 1, some "4", .num 7)) ∧
    ById [("1", waiting), ("2", done "2" .nan), ("3", crashed "3"),
      ("4", done "4" (.num 7)), ("5", done "5" (.num 7)), ("6", done "6" .pinf)] := by
  refine ⟨by decide +kernel, by decide, ?_⟩
  simp [waiting, done, crashed, Trial.new, Trial.id]

example (id : String) (x : PyFloat) : HasLoss (done id x) ∧ InfoIsDict (done id x) := by
  simp [HasLoss, InfoIsDict, done, Trial.new, Dict.get]

/-- The result `{"loss": 1.0, "learning_curve": [], "info_dict": None}`. -/
def oddResult : PyVal :=
  .dict [("loss", .float (.num 1)), ("learning_curve", .list []), ("info_dict", .none)]

/-- **C40 fails**: an objective can return a result that is accepted and stored as a success, after
which no summary of the run can be computed any more. -/
theorem C40_info_dict_fails (fs : String → Option PyFloat) (t₀ : Trial) (dv : DefaultReportValues)
    (timeEnd duration : PyFloat) :
    ∃ t r, evalTrial fs t₀ dv (.returned oddResult) timeEnd duration = .ok (t, r) ∧
      t.state = .success ∧
      ∀ trials k, (k, { t with report := some r }) ∈ trials →
        ∃ e, summarize fs trials = .error e := by
  have hp : parseUserResult fs oddResult dv.costIfNotProvided dv.learningCurveIfNotProvided =
      .ok ⟨.num 1, dv.costIfNotProvided, some [], [("info_dict", .none)]⟩ := by
    cases dv.costIfNotProvided <;>
      simp [parseUserResult, oddResult, Dict.get, Dict.erase, parseFinish, checkFloat, parseCost,
        parseCurve, optFloatVal, PyVal.toFloat, PyVal.iter, floats, Except.map]
  refine ⟨_, _, by simp only [evalTrial, hp]; rfl, rfl, ?_⟩
  intro trials k hm
  obtain ⟨e, he⟩ := collect_error (acc := []) hm rfl (e := .typeError) (by
    simp [resultDict, update, Dict.get, Dict.set, contains])
  exact ⟨e, by simp [summarize, he]⟩

/-- A report written by the evaluation code makes its trial satisfy `HasLoss`. -/
theorem evalTrial_hasLoss {fs t₀ dv o a b t r} (h : evalTrial fs t₀ dv o a b = .ok (t, r)) :
    r.reportedAs = .success → r.loss.isSome ∧ Dict.get r.extra "loss" = none := by
  have key : ∀ loss cost lc extra p, parseFinish fs loss cost lc extra = .ok p → p.extra = extra := by
    intro loss cost lc extra p hp
    unfold parseFinish at hp
    split at hp
    · simp at hp
    · split at hp
      · simp at hp
      · split at hp
        · simp at hp
        · simp only [Except.ok.injEq] at hp; rw [← hp]
  unfold evalTrial at h
  split at h
  · simp only [Trial.setComplete, Except.ok.injEq, Prod.mk.injEq] at h
    obtain ⟨rfl, rfl⟩ := h
    simp
  · split at h
    · simp at h
    · next p hp =>
      simp only [Trial.setComplete, Except.ok.injEq, Prod.mk.injEq] at h
      obtain ⟨rfl, rfl⟩ := h
      simp only [Option.isSome_some, true_and, Option.getD_some, forall_const]
      unfold parseUserResult at hp
      split at hp
      · next d =>
        split at hp
        · simp at hp
        · next loss hloss =>
          simp only at hp
          split at hp
          · simp at hp
          · next lc extra hr =>
            rw [key _ _ _ _ _ hp]
            split at hr
            · simp only [Except.ok.injEq, Prod.mk.injEq] at hr
              rw [← hr.2]; simp [Dict.get_erase]
            · split at hr
              · simp only [Except.ok.injEq, Prod.mk.injEq] at hr
                rw [← hr.2]; simp [Dict.get_erase]
              · simp only [Except.ok.injEq, Prod.mk.injEq] at hr
                rw [← hr.2]; simp [Dict.get_erase, Dict.get_set]
              · simp at hr
              · simp at hr
      · simp only at hp
        rw [key _ _ _ _ _ hp]; rfl

open Neps.Run (World run Act Settings Coh Effect)

theorem hasLoss_trans {fs st W w W'} (C : Coh fs W)
    (I : ∀ id t, (W.disk id).data = some t → HasLoss t) (tr : Run.Trans fs st W w W') :
    ∀ id t, (W'.disk id).data = some t → HasLoss t := by
  intro id t ht
  cases C.effect tr with
  | none _ hdisk _ => exact I id t (hdisk ▸ ht)
  | created id' t' _ _ hdisk _ hr _ _ _ _ =>
    rw [hdisk] at ht
    by_cases e : id = id'
    · simp only [e, if_true, Option.some.injEq] at ht
      subst ht
      simp [HasLoss, hr]
    · simp only [e, if_false] at ht; exact I id t ht
  | torn id' v n _ _ hdisk _ =>
    rw [hdisk] at ht
    by_cases e : id = id'
    · simp [e] at ht
    · simp only [e, if_false] at ht; exact I id t ht
  | claimed id' h now _ _ _ hd _ hdisk _ =>
    rw [hdisk] at ht
    by_cases e : id = id'
    · simp only [e, if_true, Option.some.injEq] at ht
      subst ht
      exact fun r hr => I id' _ hd r hr
    · simp only [e, if_false] at ht; exact I id t ht
  | reported id' h t' r _ hpc _ _ _ _ _ _ _ hdisk _ =>
    rw [hdisk] at ht
    by_cases e : id = id'
    · simp only [e, if_true, Option.some.injEq] at ht
      subst ht
      obtain ⟨dv, o, a, b, hr⟩ := C.result w id' h t' r hpc
      intro r' hr'
      simp only [Option.some.injEq] at hr'
      subst hr'
      exact evalTrial_hasLoss hr
    · simp only [e, if_false] at ht; exact I id t ht

theorem hasLoss_run (fs st as) :
    ∀ id t, ((run fs st {} as).disk id).data = some t → HasLoss t :=
  (Run.run_induction fs st (P := fun W => Coh fs W ∧ ∀ id t, (W.disk id).data = some t → HasLoss t)
    (fun _ _ _ I tr => ⟨I.1.trans tr, hasLoss_trans I.1 I.2 tr⟩)
    ⟨Coh.init fs, by simp [Store.Disk.empty]⟩ as).2

theorem allTrials_some {W : World} {order ts} (h : allTrials W order = some ts) :
    ts.map Prod.fst = order ∧ ∀ p ∈ ts, W.stored p.1 = some p.2 := by
  induction order generalizing ts with
  | nil => simp only [allTrials, List.mapM_nil, Option.pure_def, Option.some.injEq] at h; subst h; simp
  | cons id order ih =>
    simp only [allTrials, List.mapM_cons, Option.bind_eq_bind, Option.pure_def] at h
    cases hs : W.stored id with
    | none => simp [hs] at h
    | some t =>
      simp only [hs, Option.map_some, Option.bind_some, Option.bind_eq_some_iff,
        Option.some.injEq] at h
      obtain ⟨ts', h', rfl⟩ := h
      obtain ⟨h1, h2⟩ := ih h'
      refine ⟨by simp [h1], ?_⟩
      intro p hp
      rcases List.mem_cons.mp hp with rfl | hp
      · exact hs
      · exact h2 p hp

/-- **C40 (partial)** in a running optimization: at every point of every execution with any number of
workers, if the trial directories are readable then the summary can be computed (unless the objective
returned an `info_dict` that is no dictionary) and its evaluated, failed and best trials are right. -/
theorem C40_run_partial (fs : String → Option PyFloat) (st : Nat → Settings) (as : List Act)
    (order : List String) (ho : order.Perm (run fs st {} as).ids) (trials : List (String × Trial))
    (ht : allTrials (run fs st {} as) order = some trials)
    (hi : ∀ p ∈ trials, InfoIsDict p.2) :
    ∃ s, summarize fs trials = .ok s ∧
      s.numEvaluated = (run fs st {} as).trials.countP isEvaluated ∧
      s.numError = (run fs st {} as).trials.countP isFailed ∧ BestIsRight trials s := by
  have C := Run.coh_run fs st as
  obtain ⟨h1, h2⟩ := allTrials_some ht
  have hk : ById trials := by
    refine ⟨by rw [h1]; exact ho.nodup_iff.mpr C.nodup, fun p hp => ?_⟩
    exact C.names p.1 p.2 (Run.stored_eq_some.mp (h2 p hp)).2
  have hl : ∀ p ∈ trials, HasLoss p.2 := fun p hp =>
    hasLoss_run fs st as p.1 p.2 (Run.stored_eq_some.mp (h2 p hp)).2
  have hperm : (trials.map Prod.snd).Perm (run fs st {} as).trials := by
    have : trials.map Prod.snd = order.filterMap (run fs st {} as).stored := by
      rw [← h1, List.filterMap_map]
      clear h1 ht hk hl hi
      induction trials with
      | nil => rfl
      | cons p ts ih =>
        simp only [List.map_cons, List.filterMap_cons, Function.comp, h2 p (by simp)]
        rw [ih (fun p hp => h2 p (by simp [hp]))]
        rfl
    rw [this]
    exact ho.filterMap _
  obtain ⟨s, hs⟩ := C40_succeeds fs trials hk hl hi
  obtain ⟨c1, c2, _⟩ := C40_counts_partial fs trials s hk hl hs
  refine ⟨s, hs, ?_, ?_, C40_best fs trials s hk hl hs⟩
  · rw [c1, ← hperm.countP_eq, List.countP_map]; rfl
  · rw [c2, ← hperm.countP_eq, List.countP_map]; rfl

/-- The hypotheses are met in a run of two workers, one evaluation done and one crashed, at a moment
when a third trial is being evaluated. -/
example :
    (allTrials (run Run.noFloat Run.free {}
      (Run.oneTrial ++ Run.go 1 10 (Run.failing "2") ++ Run.go 0 7 (Run.propose "3")))
      ["3", "1", "2"]).map
      (fun ts => ts.map (fun p => (p.1, p.2.state, lossOf p.2)))
    = some [("3", .evaluating, none), ("1", .success, some (.num 1)), ("2", .crashed, none)] := by
  decide +kernel

/-! ## C70: the CSV files -/

/-- **C70 (partial)**: after a run with at least one successful trial, `config_data.csv` lists every
evaluated trial exactly once with its loss, in ascending order of the loss, and `run_status.csv` has
the numbers of the summary, whatever the files contained before. Missing: trials that are not
evaluated yet are not listed (`C70_pending_fails`), and a run without a successful trial
(`C70_all_failed_fails`). -/
theorem C70_csv_partial (fs : String → Option PyFloat) (sort : List Row → List Row)
    (hsort : Sorts sort) (trials : List (String × Trial)) (csv : Csv) (hk : ById trials)
    (hl : ∀ p ∈ trials, HasLoss p.2) (hi : ∀ p ∈ trials, InfoIsDict p.2)
    (hs : ∃ p ∈ trials, (lossOf p.2).isSome) :
    ∃ s rows, summarize fs trials = .ok s ∧
      postRunCsv fs sort trials csv =
        (some (rows, ⟨s.numEvaluated, 0, 0, s.bestLoss, s.bestId, s.numError⟩), none) ∧
      SortedByLoss rows ∧
      rows.Perm ((trials.filter (fun p => isEvaluated p.2)).map
        (fun p => ⟨p.1, "complete", lossOf p.2⟩)) := by
  obtain ⟨s, hsum⟩ := C40_succeeds fs trials hk hl hi
  obtain ⟨l, hf, rfl⟩ := summarize_ok hsum hk hl
  have hrows : l.map (fun p => (⟨p.1, "complete", lossColumn p.2⟩ : Row)) =
      (trials.filter (fun p => isEvaluated p.2)).map (fun p => ⟨p.1, "complete", lossOf p.2⟩) := by
    clear hsum
    have hl' : ∀ p ∈ trials.filter (fun p => isEvaluated p.2), HasLoss p.2 :=
      fun p hp => hl p (List.mem_of_mem_filter hp)
    generalize trials.filter (fun p => isEvaluated p.2) = ts at hf hl'
    induction hf with
    | nil => rfl
    | cons h _ ih =>
      next p q ts l _ =>
      rw [List.map_cons, List.map_cons, ih (fun p hp => hl' p (by simp [hp]))]
      obtain ⟨r, res, hr, he, rfl⟩ := h
      congr 2
      simp only [lossColumn, lossOf, hr]
      by_cases hsu : r.reportedAs = .success
      · obtain ⟨h1, h2⟩ := hl' p (by simp) r hr hsu
        obtain ⟨d, rfl, hd⟩ := resultDict_success hsu he h2
        obtain ⟨x, hx⟩ := Option.isSome_iff_exists.mp h1
        simp [hd, hx, hsu, optFloatVal]
      · rw [resultDict_failed hsu] at he
        simp only [Except.ok.injEq] at he
        subst he
        simp [hsu]
  have hany : l.any (fun p => p.2.result.isSome) = true := by
    obtain ⟨p, hp, hx⟩ := hs
    have he : isEvaluated p.2 = true := by
      unfold lossOf at hx
      unfold isEvaluated
      cases hr : p.2.report <;> simp [hr] at hx ⊢
    have hm : p ∈ trials.filter (fun p => isEvaluated p.2) := by simp [hp, he]
    obtain ⟨q, hq, hpq⟩ : ∃ q ∈ l, Rel p q := by
      clear hrows hsum
      generalize trials.filter (fun p => isEvaluated p.2) = ts at hf hm
      induction hf with
      | nil => simp at hm
      | cons h _ ih =>
        rcases List.mem_cons.mp hm with rfl | hm
        · exact ⟨_, by simp, h⟩
        · obtain ⟨q, hq, h⟩ := ih hm; exact ⟨q, by simp [hq], h⟩
    rw [List.any_eq_true]
    refine ⟨q, hq, ?_⟩
    have := iff_of_eq hpq.result_none
    rw [Option.isSome_iff_ne_none]
    intro hn
    have this := this.mp hn
    unfold isFailed at this
    unfold lossOf at hx
    cases hr : p.2.report with
    | none => simp [hr] at this
    | some r => simp only [hr, bne_iff_ne] at this; simp [hr, this] at hx
  refine ⟨_, sort (l.map (fun p => ⟨p.1, "complete", lossColumn p.2⟩)), hsum, ?_, (hsort _).2, ?_⟩
  · unfold postRunCsv
    rw [hsum]
    simp [saveCsv, sortValues, hany, rowsOf, runDataOf]
  · rw [← hrows]; exact (hsort _).1

/-- **C70 fails**: after a run in which every evaluation crashed, writing the CSV files raises, and
so does the call of `neps.run` that did it. -/
theorem C70_all_failed_fails (fs : String → Option PyFloat) (sort : List Row → List Row)
    (trials : List (String × Trial)) (csv : Csv) (hk : ById trials)
    (hf : ∀ p ∈ trials, lossOf p.2 = none) (hl : ∀ p ∈ trials, HasLoss p.2) :
    ∃ e, postRunCsv fs sort trials csv = (csv, some e) := by
  unfold postRunCsv
  cases hsum : summarize fs trials with
  | error e => exact ⟨e, rfl⟩
  | ok s =>
    obtain ⟨l, hrel, rfl⟩ := summarize_ok hsum hk hl
    have hany : l.any (fun p => p.2.result.isSome) = false := by
      rw [List.any_eq_false]
      intro q hq
      obtain ⟨p, hp, hpq⟩ : ∃ p ∈ trials, Rel p q := by
        clear hsum
        have hsub : ∀ p ∈ trials.filter (fun p => isEvaluated p.2), p ∈ trials :=
          fun p hp => List.mem_of_mem_filter hp
        generalize trials.filter (fun p => isEvaluated p.2) = ts at hrel hsub
        induction hrel with
        | nil => simp at hq
        | cons h _ ih =>
          rcases List.mem_cons.mp hq with rfl | hq
          · exact ⟨_, hsub _ (by simp), h⟩
          · exact ih hq (fun p hp => hsub p (by simp [hp]))
      have := hpq.result_none
      have hfail : isFailed p.2 = true := by
        obtain ⟨r, res, hr, _, _⟩ := hpq
        have h1 := hf p hp
        unfold isFailed
        simp only [lossOf, hr] at h1
        simp only [hr, bne_iff_ne]
        intro hs
        obtain ⟨h2, _⟩ := hl p hp r hr hs
        simp only [hs, if_true] at h1
        simp [h1] at h2
      simp only [hfail, eq_self, eq_iff_iff, iff_true] at this
      simp [this]
    exact ⟨.keyError, by simp [saveCsv, sortValues, hany]⟩

/-- **C70 fails**: trials that are not evaluated yet are not listed in `config_data.csv`. -/
theorem C70_pending_fails :
    (postRunCsv (fun _ => none) id [("1", waiting), ("2", done "2" (.num 7))] none).1.map
      (fun c => (c.1.map Row.id, c.2.numPending)) = some (["2"], 0) := by
  decide +kernel

/-- **C70**, the two files alone, for every summary in which some trial succeeded: while trials are
pending, a worker writes them only if there are none or if it has seen more evaluated trials than
they list, so the number of trials in them never goes down; and afterwards they hold all it has
seen. -/
theorem C70_save (sort : List Row → List Row) (s : Summary) (csv : Csv)
    (hs : ∃ p ∈ s.previousResults, p.2.result.isSome)
    (hp : s.numPending ≠ 0 ∨ s.numPendingWithWorker ≠ 0) :
    ∃ rows d, saveCsv sort s csv = (some (rows, d), none) ∧ s.numEvaluated ≤ d.numEvaluated ∧
      (∀ old, csv = some old → old.2.numEvaluated ≤ d.numEvaluated) ∧
      (some (rows, d) = csv ∨ rows = sort (rowsOf s) ∧ d = runDataOf s) := by
  have hany : s.previousResults.any (fun p => p.2.result.isSome) = true := by
    simpa [List.any_eq_true] using hs
  have hp' : ¬ (s.numPending = 0 ∧ s.numPendingWithWorker = 0) := by omega
  cases csv with
  | none =>
    refine ⟨sort (rowsOf s), runDataOf s, ?_, by simp [runDataOf], by simp, Or.inr ⟨rfl, rfl⟩⟩
    simp [saveCsv, sortValues, hany, hp']
  | some old =>
    by_cases hlt : old.2.numEvaluated < s.numEvaluated
    · refine ⟨sort (rowsOf s), runDataOf s, ?_, by simp [runDataOf], ?_, Or.inr ⟨rfl, rfl⟩⟩
      · simp [saveCsv, sortValues, hany, hp', hlt]
      · rintro _ ⟨⟩
        simp only [runDataOf]
        omega
    · refine ⟨old.1, old.2, ?_, by omega, by rintro _ ⟨⟩; exact le_refl _, Or.inl rfl⟩
      simp [saveCsv, hp', hlt]

example : ∃ (s : Summary) (old : List Row × RunData), s.numPending = 1 ∧ old.2.numEvaluated = 0 ∧
    s.previousResults.length = 1 ∧
    (saveCsv id s (some old)).1.map (fun c => (c.1.map Row.id, c.2.numEvaluated)) =
      some (["2"], 1) := by
  exact ⟨⟨[("2", ⟨"2", [], some [], waiting.metadata⟩)], [], [], 1, 1, 0, .pinf, none, none, none,
    0⟩, ([], ⟨0, 0, 0, .pinf, none, 0⟩), rfl, rfl, rfl, by decide +kernel⟩

/-- Where a row belongs: rows without a loss or with NaN last. -/
def Row.rank (r : Row) : Nat × Rat :=
  match r.loss with
  | some .ninf => (0, 0)
  | some (.num q) => (1, q)
  | some .pinf => (2, 0)
  | some .nan | none => (3, 0)

/-- A sorting algorithm for rows. -/
def sortRows (rows : List Row) : List Row :=
  rows.insertionSort (fun a b => a.rank.1 < b.rank.1 ∨ a.rank.1 = b.rank.1 ∧ a.rank.2 ≤ b.rank.2)

/-- The hypothesis about the sorting algorithm can be met. -/
theorem sortRows_sorts : Sorts sortRows := by
  intro rows
  refine ⟨List.perm_insertionSort _ _, ?_⟩
  have : Std.Total (fun a b : Row =>
      a.rank.1 < b.rank.1 ∨ a.rank.1 = b.rank.1 ∧ a.rank.2 ≤ b.rank.2) :=
    ⟨fun a b => by
      rcases Nat.lt_trichotomy a.rank.1 b.rank.1 with h | h | h
      · exact Or.inl (Or.inl h)
      · rcases le_total a.rank.2 b.rank.2 with h' | h'
        · exact Or.inl (Or.inr ⟨h, h'⟩)
        · exact Or.inr (Or.inr ⟨h.symm, h'⟩)
      · exact Or.inr (Or.inl h)⟩
  have : IsTrans Row (fun a b =>
      a.rank.1 < b.rank.1 ∨ a.rank.1 = b.rank.1 ∧ a.rank.2 ≤ b.rank.2) :=
    ⟨fun a b c h h' => by
      rcases h with h | ⟨h, h2⟩ <;> rcases h' with h' | ⟨h', h2'⟩
      · exact Or.inl (h.trans h')
      · exact Or.inl (h'.symm ▸ h)
      · exact Or.inl (h.symm ▸ h')
      · exact Or.inr ⟨h.trans h', h2.trans h2'⟩⟩
  refine (List.pairwise_insertionSort _ rows).imp ?_
  intro a b h y hy hn
  cases ha : a.loss with
  | none =>
    cases y <;> simp [Row.rank, ha, hy] at h hn
  | some x =>
    refine ⟨x, rfl, ?_⟩
    cases x <;> cases y <;> simp_all [Row.rank, PyFloat.le]

example :
    (postRunCsv (fun _ => none) sortRows
      [("1", waiting), ("2", done "2" .nan), ("3", crashed "3"), ("4", done "4" (.num 7)),
       ("5", done "5" (.num 3)), ("6", done "6" .pinf)] none).1.map (fun c => c.1.map Row.id)
      = some ["5", "4", "6", "2", "3"] := by decide +kernel

end Neps.Status
