import Verif.Cli.ResultsProps

/-!
# C98, C99: `neps status` and `neps info-config`
-/

namespace Neps.Cli

open Neps.Ids

/-! ## C98: `neps status` -/

/-- The sort key of a trial whose time is a number. -/
def timeOf (t : Trial) : Rat :=
  match t.metadata.timeSampled with
  | .num q => q
  | _ => 0

/-- Inserting into a list that is newest first. -/
theorem insert_newest (a : Trial) (l : List Trial)
    (hn : ∀ t ∈ a :: l, t.metadata.timeSampled = .num (timeOf t)) (h : NewestFirst l) :
    NewestFirst (l.orderedInsert
      (fun a b => PyFloat.lt a.metadata.timeSampled b.metadata.timeSampled = false) a) := by
  induction l with
  | nil => simp [NewestFirst]
  | cons b l ih =>
    rw [List.orderedInsert]
    have ha := hn a (by simp)
    have hb := hn b (by simp)
    have hh := List.pairwise_cons.1 h
    split
    · rename_i hlt
      have hba : timeOf b ≤ timeOf a := by
        rw [ha, hb] at hlt; simpa [PyFloat.lt] using hlt
      refine List.pairwise_cons.2 ⟨?_, h⟩
      intro c hc
      have hcn := hn c (by simp at hc ⊢; tauto)
      rw [hcn, ha]
      simp only [PyFloat.le, decide_eq_true_eq]
      rcases List.mem_cons.1 hc with rfl | hc
      · exact hba
      · have := hh.1 c hc
        rw [hcn, hb] at this
        simp only [PyFloat.le, decide_eq_true_eq] at this
        exact this.trans hba
    · rename_i hlt
      have hab : timeOf a ≤ timeOf b := by
        rw [ha, hb] at hlt
        simp only [PyFloat.lt, decide_eq_false_iff_not, not_lt, not_le] at hlt
        exact hlt.le
      refine List.pairwise_cons.2 ⟨?_, ih (fun t ht => hn t (by simp at ht ⊢; tauto)) hh.2⟩
      intro c hc
      rw [List.mem_orderedInsert] at hc
      rcases hc with rfl | hc
      · rw [ha, hb]; simpa [PyFloat.le] using hab
      · exact hh.1 c hc

theorem newestFirst_sorted (l : List Trial)
    (hn : ∀ t ∈ l, t.metadata.timeSampled = .num (timeOf t)) : NewestFirst (newestFirst l) := by
  induction l with
  | nil => simp [newestFirst, NewestFirst]
  | cons a l ih =>
    have h' : ∀ t ∈ l, t.metadata.timeSampled = .num (timeOf t) := fun t ht => hn t (by simp [ht])
    rw [newestFirst, List.insertionSort]
    refine insert_newest a _ ?_ (ih h')
    intro t ht
    rcases List.mem_cons.1 ht with rfl | ht
    · exact hn _ (by simp)
    · exact h' t ((List.perm_insertionSort _ _).mem_iff.1 ht)

/-- **C98**: the table of `neps status` shows, newest first, exactly the trials in the state asked for
(the first of the flags `--pending`, `--evaluating`, `--succeeded` that is given), or the seven
latest trials. -/
theorem C98_table (fs : String → Option PyFloat) (elapsed : PyFloat → PyFloat) (f : Flags)
    (trials : List (String × Trial)) (out : StatusOut)
    (ht : TimesAreNumbers trials) (h : statusCmd fs elapsed f trials = .ok out) :
    ∃ shown, out.lines.map Line.id = shown.map Trial.id ∧
      out.lines.map Line.state = shown.map Trial.state ∧
      out.lines.map Line.loss = shown.map lossIn ∧
      (f.pending = true → ShowsState .pending trials shown) ∧
      (f.pending = false → f.evaluating = true → ShowsState .evaluating trials shown) ∧
      (f.pending = false → f.evaluating = false → f.succeeded = true →
        ShowsState .success trials shown) ∧
      (f = {} → ShowsLatest trials shown) := by
  have hn : ∀ t ∈ trials.map Prod.snd, t.metadata.timeSampled = .num (timeOf t) := by
    intro t hm
    obtain ⟨p, hp, rfl⟩ := List.mem_map.1 hm
    obtain ⟨q, hq⟩ := ht p hp
    simp [timeOf, hq]
  have hsort := newestFirst_sorted _ hn
  have hperm : (newestFirst (trials.map Prod.snd)).Perm (trials.map Prod.snd) :=
    List.perm_insertionSort _ _
  have hstate : ∀ s : TState, ShowsState s trials
      ((newestFirst (trials.map Prod.snd)).filter (fun t => t.state = s)) :=
    fun s => ⟨hperm.filter _, hsort.filter _⟩
  unfold statusCmd at h
  cases hs : Status.summarize fs trials with
  | error e => simp [hs] at h
  | ok s =>
    simp only [hs, Except.ok.injEq] at h
    subst h
    refine ⟨tableTrials f (trials.map Prod.snd), ?_, ?_, ?_, ?_, ?_, ?_, ?_⟩
    · simp [lineOf, List.map_map, Function.comp_def]
    · simp [lineOf, List.map_map, Function.comp_def]
    · simp only [List.map_map, Function.comp_def, lineOf]; rfl
    · intro hf
      simp only [tableTrials, if_pos hf]; exact hstate _
    · intro hf hf'
      simp only [tableTrials, hf, Bool.false_eq_true, if_false, if_pos hf']; exact hstate _
    · intro hf hf' hf''
      simp only [tableTrials, hf, hf', Bool.false_eq_true, if_false, if_pos hf'']; exact hstate _
    · intro hf
      subst hf
      simp only [tableTrials, Bool.false_eq_true, if_false]
      refine ⟨hsort.sublist (List.take_sublist _ _), ?_,
        (newestFirst (trials.map Prod.snd)).drop 7, by rw [List.take_append_drop]; exact hperm, ?_⟩
      · rw [List.length_take, hperm.length_eq, List.length_map]
      · have : NewestFirst ((newestFirst (trials.map Prod.snd)).take 7 ++
            (newestFirst (trials.map Prod.snd)).drop 7) := by rwa [List.take_append_drop]
        intro a ha b hb
        exact (List.pairwise_append.1 this).2.2 a ha b hb

/-- Evaluated trials have succeeded or failed. -/
theorem evaluated_split (trials : List (String × Trial)) :
    trials.countP (fun p => Status.isEvaluated p.2) =
      trials.countP (fun p => isSucceeded p.2) + trials.countP (fun p => Status.isFailed p.2) := by
  induction trials with
  | nil => rfl
  | cons p ts ih =>
    have h : (if Status.isEvaluated p.2 = true then 1 else 0) =
        (if isSucceeded p.2 = true then 1 else 0) + (if Status.isFailed p.2 = true then 1 else 0) := by
      cases hr : p.2.report with
      | none => simp [Status.isEvaluated, isSucceeded, Status.isFailed, hr]
      | some r =>
        cases ha : r.reportedAs <;> simp [Status.isEvaluated, isSucceeded, Status.isFailed, hr, ha]
    simp only [List.countP_cons, ih, h]
    omega

/-- **C98 (partial)**: the numbers of succeeded, failed and active trials are right. Missing: the
number of pending trials (`C98_pending_fails`). -/
theorem C98_counts_partial (fs : String → Option PyFloat) (elapsed : PyFloat → PyFloat) (f : Flags)
    (trials : List (String × Trial)) (out : StatusOut) (hk : Status.ById trials)
    (hl : ∀ p ∈ trials, Status.HasLoss p.2) (h : statusCmd fs elapsed f trials = .ok out) :
    out.counts.succeeded = (trials.countP (fun p => isSucceeded p.2) : Nat) ∧
    out.counts.failed = trials.countP (fun p => Status.isFailed p.2) ∧
    out.counts.active = trials.countP (fun p => p.2.state = .evaluating) := by
  unfold statusCmd at h
  cases hs : Status.summarize fs trials with
  | error e => simp [hs] at h
  | ok s =>
    simp only [hs, Except.ok.injEq] at h
    subst h
    obtain ⟨h1, h2, _⟩ := Status.C40_counts_partial fs trials s hk hl hs
    refine ⟨?_, h2, ?_⟩
    · simp only [h1, h2]
      have : trials.countP (fun p => Status.isEvaluated p.2) =
          trials.countP (fun p => isSucceeded p.2) + trials.countP (fun p => Status.isFailed p.2) := by
        exact evaluated_split trials
      omega
    · simp only [← List.countP_eq_length_filter, List.countP_map]
      rfl

/-- **C98 fails**: the number of pending trials it prints is 0, also when trials are pending. -/
theorem C98_pending_fails (fs : String → Option PyFloat) (elapsed : PyFloat → PyFloat) (f : Flags)
    (trials : List (String × Trial)) (out : StatusOut) (h : statusCmd fs elapsed f trials = .ok out) :
    out.counts.pending = 0 ∧ out.counts.pendingWithWorker = 0 := by
  unfold statusCmd at h
  cases hs : Status.summarize fs trials with
  | error e => simp [hs] at h
  | ok s =>
    simp only [hs, Except.ok.injEq] at h
    subst h
    obtain ⟨h1, h2, _⟩ := Status.C40_pending_fails fs trials s hs
    exact ⟨h1, h2⟩

/-- **C98**: the trial named as the best one is the first one with the smallest loss among the
successful ones, with its configuration; it is left out only with a flag or when there is none. -/
theorem C98_best (fs : String → Option PyFloat) (elapsed : PyFloat → PyFloat)
    (trials : List (String × Trial)) (out : StatusOut) (hk : Status.ById trials)
    (hl : ∀ p ∈ trials, Status.HasLoss p.2) (h : statusCmd fs elapsed {} trials = .ok out) :
    (out.best = none ∧ ∀ p ∈ trials, ∀ x, Status.lossOf p.2 = some x → x = .pinf ∨ x = .nan) ∨
    ∃ before k t after x, trials = before ++ (k, t) :: after ∧ out.best = some (k, x, t.config) ∧
      Status.lossOf t = some x ∧ out.counts.bestLoss = x ∧
      (∀ p ∈ before, ∀ y, Status.lossOf p.2 = some y → y = .nan ∨ PyFloat.lt x y = true) ∧
      (∀ p ∈ after, ∀ y, Status.lossOf p.2 = some y → y = .nan ∨ PyFloat.le x y = true) := by
  unfold statusCmd at h
  cases hs : Status.summarize fs trials with
  | error e => simp [hs] at h
  | ok s =>
    simp only [hs, Except.ok.injEq] at h
    subst h
    rcases Status.C40_best fs trials s hk hl hs with hb | hb
    · exact Or.inl ⟨by simp [hb.1], hb.2.2.2.2⟩
    · right
      obtain ⟨before, k, t, after, he, hi, hc, _, hx, _, _, h1, h2⟩ := hb
      exact ⟨before, k, t, after, s.bestLoss, he, by simp [hi, hc], hx, rfl, h1, h2⟩

/-- **C98**: with any of the flags the best trial is not printed. -/
theorem C98_no_best (fs : String → Option PyFloat) (elapsed : PyFloat → PyFloat) (f : Flags)
    (trials : List (String × Trial)) (out : StatusOut)
    (hf : f.pending = true ∨ f.evaluating = true ∨ f.succeeded = true)
    (h : statusCmd fs elapsed f trials = .ok out) : out.best = none := by
  unfold statusCmd at h
  cases hs : Status.summarize fs trials with
  | error e => simp [hs] at h
  | ok s =>
    simp only [hs, Except.ok.injEq] at h
    subst h
    rcases hf with hf | hf | hf <;> simp [hf]

/-- Nine trials. -/
def nine : List (String × Trial) :=
  [("9", waiting "9" 9), ("1", finished "1" 1 (.num 5)), ("2", finished "2" 2 .nan),
   ("3", { waiting "3" 3 with state := .evaluating }), ("4", finished "4" 4 (.num 3)),
   ("5", Status.crashed "5"), ("6", waiting "6" 6), ("7", finished "7" 7 (.num 3)),
   ("8", finished "8" 8 (.num 4))]

example :
    (statusCmd (fun _ => none) id {} nine).map (fun out => out.lines.map Line.id) =
      .ok ["9", "8", "7", "6", "4", "3", "2"] ∧
    (statusCmd (fun _ => none) id {} nine).map (fun out => out.counts) =
      .ok ⟨5, 1, 1, 0, 0, .num 3⟩ ∧
    (statusCmd (fun _ => none) id {} nine).map (fun out => out.best.map (fun b => (b.1, b.2.1))) =
      .ok (some ("4", .num 3)) ∧
    (statusCmd (fun _ => none) id { pending := true } nine).map (fun out => out.lines.map Line.id) =
      .ok ["9", "6"] := by
  refine ⟨?_, ?_, ?_, ?_⟩ <;> decide +kernel

example : Status.ById nine ∧ TimesAreNumbers nine ∧ ∀ p ∈ nine, Status.HasLoss p.2 := by
  refine ⟨⟨by decide +kernel, by decide +kernel⟩, ?_, ?_⟩
  · intro p hp
    simp only [nine, List.mem_cons, List.not_mem_nil, or_false] at hp
    rcases hp with rfl | rfl | rfl | rfl | rfl | rfl | rfl | rfl | rfl <;>
      exact ⟨_, rfl⟩
  · intro p hp r hr hs
    simp only [nine, List.mem_cons, List.not_mem_nil, or_false] at hp
    rcases hp with rfl | rfl | rfl | rfl | rfl | rfl | rfl | rfl | rfl <;>
      simp [finished, waiting, Trial.new, Status.crashed] at hr <;> subst hr <;>
      simp_all [Dict.get]

/-! ## C99: `neps info-config` -/

/-- **C99**: for a trial whose evaluation has ended, `neps info-config` shows its configuration, state
and report. -/
theorem C99_finished (fs : String → Option PyFloat) (trials : List (String × Trial)) (k : String)
    (t₀ t : Trial) (r : Report) (dv : DefaultReportValues) (o : Outcome)
    (started ended duration : PyFloat) (worker : String)
    (he : evalTrial fs (t₀.setEvaluating started worker) dv o ended duration = .ok (t, r))
    (hk : (trials.map Prod.fst).Nodup) (hm : (k, { t with report := some r }) ∈ trials) :
    ∃ i, infoConfig trials k = .ok (some i) ∧ i.id = t₀.id ∧ i.config = t₀.config ∧
      i.state = t.state ∧ i.timeStarted = started ∧ i.timeEnd = ended ∧ i.duration = duration ∧
      i.evaluatingWorkerId = some worker ∧ i.report = some (r.loss, r.cost, r.reportedAs) := by
  have hf : trials.find? (fun p => p.1 = k) = some (k, { t with report := some r }) := by
    clear he
    induction trials with
    | nil => simp at hm
    | cons p ts ih =>
      simp only [List.map_cons, List.nodup_cons] at hk
      rcases List.mem_cons.1 hm with rfl | hm
      · simp
      · rw [List.find?_cons_of_neg (by
          simp only [decide_eq_true_eq]
          rintro rfl
          exact hk.1 (List.mem_map.2 ⟨_, hm, rfl⟩))]
        exact ih hk.2 hm
  simp only [infoConfig, hf]
  unfold evalTrial at he
  cases o with
  | raised e tb =>
    simp only [Except.ok.injEq, Trial.setComplete, Prod.mk.injEq] at he
    obtain ⟨rfl, rfl⟩ := he
    exact ⟨_, rfl, rfl, rfl, rfl, rfl, rfl, rfl, rfl, rfl⟩
  | returned v =>
    simp only at he
    split at he
    · simp at he
    · simp only [Except.ok.injEq, Trial.setComplete, Prod.mk.injEq] at he
      obtain ⟨rfl, rfl⟩ := he
      exact ⟨_, rfl, rfl, rfl, rfl, rfl, rfl, rfl, rfl, rfl⟩

/-- **C99**: for an id that is not in the run it says so. -/
theorem C99_unknown (trials : List (String × Trial)) (k : String) :
    infoConfig trials k = .ok none ↔ k ∉ trials.map Prod.fst := by
  unfold infoConfig
  cases hf : trials.find? (fun p => p.1 = k) with
  | none =>
    have := List.find?_eq_none.1 hf
    simp only [decide_eq_true_eq] at this
    simp only [true_iff, List.mem_map, not_exists, not_and]
    exact fun p hp => this p hp
  | some p =>
    have h1 := List.mem_of_find?_eq_some hf
    have h2 := List.find?_some hf
    simp only [decide_eq_true_eq] at h2
    have : k ∈ trials.map Prod.fst := List.mem_map.2 ⟨p, h1, h2⟩
    simp only [this, not_true, iff_false]
    cases infoOf p.2 <;> simp

/-- **C99 fails**: for a trial that waits or is being evaluated it raises `TypeError`. -/
theorem C99_unfinished_fails (id : String) (config : List (String × PyVal)) (location : String)
    (prev prevLocation : Option String) (time started : PyFloat) (w w' : String) :
    infoOf (Trial.new id config location prev prevLocation time w) = .error .typeError ∧
    infoOf ((Trial.new id config location prev prevLocation time w).setEvaluating started w') =
      .error .typeError :=
  ⟨rfl, rfl⟩

example : (evalTrial (fun _ => none) ((waiting "3" 1).setEvaluating (.num 2) "w") {}
      (.returned (.float (.num 7))) (.num 4) (.num 2)).map (fun p => p.1.state) = .ok .success := by
  decide +kernel

end Neps.Cli
