import Verif.Status.Parallel
import Verif.Status.Props

/-!
# C120, C121: the summary of a run that several processes work on

C120: the CSV files when several workers end. C121: what `neps.status` prints and returns.
-/

namespace Neps.Status

open Neps.Run (World run Act Settings Coh)

variable {fs : String → Option PyFloat} {st : Nat → Settings} {sort : List Row → List Row}

/-- The actions of the workers in a history. -/
def Ev.acts : List Ev → List Act
  | [] => []
  | .work a :: es => a :: acts es
  | _ :: es => acts es

/-- The process `p` neither starts nor ends a summary in this history. -/
def Quiet (p : Nat) (es : List Ev) : Prop :=
  ∀ e ∈ es, (∀ order, e ≠ .begin p order) ∧ e ≠ .save p

/-- The trial directories after a history. -/
def worldAfter (fs : String → Option PyFloat) (st : Nat → Settings) (es : List Ev) : World :=
  run fs st {} (Ev.acts es)

/-! ## Lemmas -/

theorem acts_append (a b : List Ev) : Ev.acts (a ++ b) = Ev.acts a ++ Ev.acts b := by
  induction a with
  | nil => rfl
  | cons e a ih => cases e <;> simp [Ev.acts, ih]

theorem play_append (B : Board) (a b : List Ev) :
    B.play fs st sort (a ++ b) = (B.play fs st sort a).play fs st sort b := by
  simp [Board.play, List.foldl_append]

theorem step_W (B : Board) (e : Ev) :
    (B.step fs st sort e).W = run fs st B.W (Ev.acts [e]) := by
  cases e with
  | work a => rfl
  | begin p o => rfl
  | read p =>
    simp only [Board.step, Ev.acts, run, List.foldl_nil]
    split
    · split <;> rfl
    · rfl
  | save p =>
    simp only [Board.step, Ev.acts, run, List.foldl_nil]
    split <;> rfl

theorem play_W (B : Board) (es : List Ev) :
    (B.play fs st sort es).W = run fs st B.W (Ev.acts es) := by
  induction es generalizing B with
  | nil => rfl
  | cons e es ih =>
    have h : B.play fs st sort (e :: es) = (B.step fs st sort e).play fs st sort es := rfl
    rw [h, ih, step_W, ← Run.run_append, ← acts_append]
    rfl

theorem play_worldAfter (es : List Ev) :
    (({} : Board).play fs st sort es).W = worldAfter fs st es := play_W _ _

theorem worldAfter_append (a b : List Ev) :
    worldAfter fs st (a ++ b) = run fs st (worldAfter fs st a) (Ev.acts b) := by
  rw [worldAfter, acts_append, Run.run_append]; rfl

/-- What process `p` has read so far, and what it has still to read. -/
structure Reads (fs : String → Option PyFloat) (st : Nat → Settings) (h₁ h₂ : List Ev)
    (todo : List String) (seen : List (String × Trial)) : Prop where
  ids : (seen.map Prod.fst ++ todo).Perm (worldAfter fs st h₁).ids
  true_ : ∀ q ∈ seen, ∃ a b, h₂ = a ++ b ∧ (worldAfter fs st (h₁ ++ a)).stored q.1 = some q.2

theorem reads_step {p : Nat} {h₁ h₂ : List Ev} {e : Ev} {B : Board}
    (hB : B.W = worldAfter fs st (h₁ ++ h₂))
    (hq : (∀ order, e ≠ .begin p order) ∧ e ≠ .save p)
    (I : ∀ todo seen, B.writer p = .reading todo seen → Reads fs st h₁ h₂ todo seen) :
    ∀ todo seen, (B.step fs st sort e).writer p = .reading todo seen →
      Reads fs st h₁ (h₂ ++ [e]) todo seen := by
  intro todo seen h
  have keep : ∀ todo seen, Reads fs st h₁ h₂ todo seen → Reads fs st h₁ (h₂ ++ [e]) todo seen := by
    intro todo seen R
    refine ⟨R.ids, fun q hq => ?_⟩
    obtain ⟨a, b, rfl, hs⟩ := R.true_ q hq
    exact ⟨a, b ++ [e], by simp, hs⟩
  cases e with
  | work a => exact keep _ _ (I _ _ h)
  | begin p' o =>
    have hne : p ≠ p' := by rintro rfl; exact hq.1 o rfl
    simp only [Board.step, Board.setP, hne, if_false] at h
    exact keep _ _ (I _ _ h)
  | save p' =>
    have hne : p ≠ p' := by rintro rfl; exact hq.2 rfl
    simp only [Board.step] at h
    split at h
    · simp only [Board.setP, hne, if_false] at h
      exact keep _ _ (I _ _ h)
    · exact keep _ _ (I _ _ h)
  | read p' =>
    simp only [Board.step] at h
    by_cases hne : p = p'
    · subst hne
      split at h
      · next id todo' seen' hw =>
        have R := I _ _ hw
        split at h
        · next hd hl =>
          simp only [Board.setP, if_true, Writer.reading.injEq] at h
          obtain ⟨rfl, rfl⟩ := h
          refine ⟨?_, fun q hq => ?_⟩
          · simpa using R.ids
          · rcases List.mem_append.mp hq with hq | hq
            · exact (keep _ _ R).true_ q hq
            · simp only [List.mem_singleton] at hq
              subst hq
              refine ⟨h₂, [.read p], rfl, ?_⟩
              rw [← hB]
              simp [World.stored, hl]
        · simp [Board.setP] at h
      · exact keep _ _ (I _ _ h)
    · split at h
      · split at h
        · simp only [Board.setP, hne, if_false] at h; exact keep _ _ (I _ _ h)
        · simp only [Board.setP, hne, if_false] at h; exact keep _ _ (I _ _ h)
      · exact keep _ _ (I _ _ h)

theorem reads_play {p : Nat} {order : List String} (h₁ h₂ : List Ev) (hq : Quiet p h₂) :
    ∀ todo seen,
      (({} : Board).play fs st sort (h₁ ++ .begin p order :: h₂)).writer p = .reading todo seen →
      Reads fs st h₁ (.begin p order :: h₂) todo seen := by
  induction h₂ using List.reverseRecOn with
  | nil =>
    intro todo seen h
    rw [play_append] at h
    simp only [Board.play, List.foldl_cons, List.foldl_nil, Board.step, Board.setP, if_true,
      Writer.reading.injEq] at h
    obtain ⟨rfl, rfl⟩ := h
    have hw : (List.foldl (Board.step fs st sort) ({} : Board) h₁).W = worldAfter fs st h₁ :=
      play_worldAfter h₁
    refine ⟨?_, by simp⟩
    rw [hw]
    split
    · next hp => simpa using List.isPerm_iff.mp hp
    · simp
  | append_singleton h₂ e ih =>
    have e1 : h₁ ++ Ev.begin p order :: (h₂ ++ [e]) = (h₁ ++ .begin p order :: h₂) ++ [e] := by simp
    rw [e1, play_append]
    have := reads_step (fs := fs) (st := st) (sort := sort) (p := p) (h₁ := h₁)
      (h₂ := .begin p order :: h₂) (e := e)
      (B := ({} : Board).play fs st sort (h₁ ++ .begin p order :: h₂))
      (play_worldAfter _) (hq e (by simp)) (ih (fun e' he' => hq e' (by simp [he'])))
    exact this

theorem stored_later {a b : List Ev} {id : String} {t : Trial}
    (h : (worldAfter fs st a).stored id = some t) :
    ∃ t', (worldAfter fs st (a ++ b)).stored id = some t' ∧
      (t.report.isSome → t'.report.isSome) := by
  obtain ⟨⟨v, hv⟩, hd⟩ := Run.stored_eq_some.mp h
  obtain ⟨t', h1, h2, _, h4⟩ := Run.run_keeps (st := st) (Run.coh_run fs st (Ev.acts a)) (Ev.acts b) hd
  obtain ⟨v', hv'⟩ := Option.isSome_iff_exists.mp (h2 (by
    show ((worldAfter fs st a).disk id).ver.isSome = true
    simp [hv]))
  refine ⟨t', ?_, h4⟩
  rw [worldAfter_append]
  exact Run.stored_eq_some.mpr ⟨⟨v', hv'⟩, h1⟩

/-! ## C120 -/

/-- **C120 (partial)**: whatever the other workers and writers do at the same time, a process that
has read all trials and then gets the lock leaves a `config_data.csv` in which every trial that was
evaluated when the process began is listed, no trial is listed twice, and every row was true at some
moment since the process began: the trial was evaluated then and the loss is the one it had. The rows
are in ascending order of the loss, and the number in `run_status.csv` is the number of rows. Missing:
the file may forget what another process wrote meanwhile (`C120_stale_fails`). -/
theorem C120_files_partial (fs : String → Option PyFloat) (st : Nat → Settings)
    (sort : List Row → List Row) (hsort : Sorts sort) (p : Nat) (order : List String)
    (h₁ h₂ : List Ev) (hq : Quiet p h₂) (seen : List (String × Trial))
    (hr : (({} : Board).play fs st sort (h₁ ++ .begin p order :: h₂)).writer p = .reading [] seen)
    (hi : ∀ q ∈ seen, InfoIsDict q.2) (hs : ∃ q ∈ seen, (lossOf q.2).isSome) :
    ∃ rows d, (({} : Board).play fs st sort (h₁ ++ .begin p order :: h₂ ++ [.save p])).csv =
        some (rows, d) ∧
      (rows.map Row.id).Nodup ∧ SortedByLoss rows ∧ d.numEvaluated = rows.length ∧
      (∀ id t, (worldAfter fs st h₁).stored id = some t → isEvaluated t = true →
        ∃ row ∈ rows, row.id = id) ∧
      (∀ row ∈ rows, ∃ a b t, .begin p order :: h₂ = a ++ b ∧
        (worldAfter fs st (h₁ ++ a)).stored row.id = some t ∧ isEvaluated t = true ∧
        row.loss = lossOf t) := by
  have R := reads_play (fs := fs) (st := st) (sort := sort) h₁ h₂ hq [] seen hr
  have hids : (seen.map Prod.fst).Perm (worldAfter fs st h₁).ids := by simpa using R.ids
  have hcoh : ∀ es, Coh fs (worldAfter fs st es) := fun es => Run.coh_run fs st _
  have hk : ById seen := by
    refine ⟨hids.nodup_iff.mpr (hcoh h₁).nodup, fun q hq => ?_⟩
    obtain ⟨a, b, _, h⟩ := R.true_ q hq
    exact (hcoh _).names q.1 q.2 (Run.stored_eq_some.mp h).2
  have hl : ∀ q ∈ seen, HasLoss q.2 := by
    intro q hq
    obtain ⟨a, b, _, h⟩ := R.true_ q hq
    exact hasLoss_run fs st _ q.1 q.2 (Run.stored_eq_some.mp h).2
  obtain ⟨s, rows, hsum, hpost, hsorted, hperm⟩ := C70_csv_partial fs sort hsort seen
    (({} : Board).play fs st sort (h₁ ++ .begin p order :: h₂)).csv hk hl hi hs
  have hcount := (C40_counts_partial fs seen s hk hl hsum).1
  refine ⟨rows, ⟨s.numEvaluated, 0, 0, s.bestLoss, s.bestId, s.numError⟩, ?_, ?_, hsorted, ?_, ?_, ?_⟩
  · rw [play_append]
    simp only [Board.play, List.foldl_cons, List.foldl_nil]
    have hr' := hr
    simp only [Board.play] at hr'
    simp only [Board.step, hr']
    have hpost' := congrArg Prod.fst hpost
    simpa [Board.play] using hpost'
  · rw [(hperm.map Row.id).nodup_iff, List.map_map]
    have : (seen.filter (fun p => isEvaluated p.2)).map (Row.id ∘ fun p => ⟨p.1, "complete", lossOf p.2⟩)
        = (seen.filter (fun p => isEvaluated p.2)).map Prod.fst := rfl
    rw [this]
    exact hk.1.sublist (List.filter_sublist.map _)
  · simp only [hcount, hperm.length_eq, List.length_map, List.countP_eq_length_filter]
  · intro id t ht he
    have hin : id ∈ (worldAfter fs st h₁).ids := by
      by_contra hn
      have := (hcoh h₁).fresh id hn
      rw [(Run.stored_eq_some.mp ht).2] at this
      simp at this
    obtain ⟨q, hqs, hqid⟩ := List.mem_map.mp (hids.mem_iff.mpr hin)
    obtain ⟨a, b, hab, h⟩ := R.true_ q hqs
    subst hqid
    obtain ⟨t', ht', hrep⟩ := stored_later (b := a) ht
    rw [ht'] at h
    simp only [Option.some.injEq] at h
    subst h
    have he' : isEvaluated q.2 = true := hrep he
    refine ⟨⟨q.1, "complete", lossOf q.2⟩, hperm.mem_iff.mpr ?_, rfl⟩
    exact List.mem_map.mpr ⟨q, by simp [hqs, he'], rfl⟩
  · intro row hrow
    obtain ⟨q, hqm, rfl⟩ := List.mem_map.mp (hperm.mem_iff.mp hrow)
    obtain ⟨hqs, he⟩ := List.mem_filter.mp hqm
    obtain ⟨a, b, hab, h⟩ := R.true_ q hqs
    exact ⟨a, b, q.2, hab, h, he, rfl⟩

/-- Each worker does one evaluation. -/
def oneEach : Nat → Settings := fun _ => { onError := .ignore, maxEvalsWorker := some 1 }

/-- The worker has come back from its loop by a stopping criterion. -/
def Returned (W : World) (w : Nat) : Prop := ∃ h, (W.worker w).pc = .stopped h

instance (W : World) (w : Nat) : Decidable (Returned W w) :=
  match h : (W.worker w).pc with
  | .stopped x => isTrue ⟨x, h⟩
  | .top | .readErrors | .sweepList | .sweep _ _ | .pendList | .pend _ _ | .fetch _ | .sample
  | .claim _ _ | .eval _ _ | .report _ _ _ _ | .budget _ _ | .logErr _ _ _ | .raised _ =>
    isFalse (by rintro ⟨y, hy⟩; rw [hy] at h; cases h)

/-- Worker 0 evaluates trial "1", ends, and reads all trials. -/
def before : List Ev :=
  (Run.go 0 9 (Run.propose "1")).map .work ++ [.begin 0 ["1"], .read 0]

/-- Then worker 1 evaluates trial "2", ends, reads all trials and writes the files. -/
def meanwhile : List Ev :=
  (Run.go 1 10 (Run.propose "2")).map .work ++ [.begin 1 ["1", "2"], .read 1, .read 1, .save 1]

/-- **C120 fails**: a worker that read the trials before another one ended and gets the lock after it
replaces the newer files by its own. Both workers have ended, both have written the files, and
`config_data.csv` misses a trial that was evaluated and had been listed. -/
theorem C120_stale_fails :
    Returned (worldAfter Run.noFloat oneEach (before ++ meanwhile)) 0 ∧
    Returned (worldAfter Run.noFloat oneEach (before ++ meanwhile)) 1 ∧
    (worldAfter Run.noFloat oneEach (before ++ meanwhile)).ids.map
      (fun id => ((worldAfter Run.noFloat oneEach (before ++ meanwhile)).stored id).map
        (fun t => (id, isEvaluated t))) = [some ("1", true), some ("2", true)] ∧
    (({} : Board).play Run.noFloat oneEach sortRows (before ++ meanwhile)).csv.map
      (fun c => (c.1.map Row.id, c.2.numEvaluated)) = some (["1", "2"], 2) ∧
    (({} : Board).play Run.noFloat oneEach sortRows (before ++ meanwhile ++ [.save 0])).csv.map
      (fun c => (c.1.map Row.id, c.2.numEvaluated)) = some (["1"], 1) := by
  refine ⟨by decide +kernel, by decide +kernel, by decide +kernel, by decide +kernel,
    by decide +kernel⟩

/-- The hypotheses of `C120_files_partial` are met by worker 1 in this history, worker 0 having read
before: worker 1 has read both trials. -/
example :
    Quiet 1 [.read 1, .save 0, .read 1] ∧
    ∃ seen, (({} : Board).play Run.noFloat oneEach sortRows
      (before ++ (Run.go 1 10 (Run.propose "2")).map .work ++
        .begin 1 ["2", "1"] :: [.read 1, .save 0, .read 1])).writer 1 = .reading [] seen ∧
      seen.map (fun q => (q.1, lossOf q.2)) = [("2", some (.num 1)), ("1", some (.num 1))] := by
  constructor
  · intro e he
    simp only [List.mem_cons, List.not_mem_nil, or_false] at he
    rcases he with rfl | rfl | rfl <;> simp
  · have h : ∃ seen, (match (({} : Board).play Run.noFloat oneEach sortRows
      (before ++ (Run.go 1 10 (Run.propose "2")).map .work ++
        .begin 1 ["2", "1"] :: [.read 1, .save 0, .read 1])).writer 1 with
        | .reading [] seen => some seen | _ => none) = some seen ∧
      seen.map (fun q => (q.1, lossOf q.2)) = [("2", some (.num 1)), ("1", some (.num 1))] := by
      rw [← Option.map_eq_some_iff (f := fun seen : List (String × Trial) =>
        seen.map (fun q => (q.1, lossOf q.2)))]
      decide +kernel
    obtain ⟨seen, h1, h2⟩ := h
    refine ⟨seen, ?_, h2⟩
    split at h1
    · next e => simp only [Option.some.injEq] at h1; rw [e, h1]
    · simp at h1

/-! ## C121 -/

/-- **C121 (partial)**: without the three flags that ask for more, `neps.status` prints the number of
evaluated trials, of crashed ones, and, if there is an evaluated trial, the best loss, the trial that
has it and its configuration; it returns exactly the evaluated trials, whether it prints or not.
Missing: the pending trials (`C40_pending_fails`) and the flags (`C121_flags_fails`). -/
theorem C121_status_partial (fs : String → Option PyFloat) (trials : List (String × Trial))
    (files : String → Option String) (hk : ById trials) (hl : ∀ p ∈ trials, HasLoss p.2)
    (hi : ∀ p ∈ trials, InfoIsDict p.2) :
    ∃ s pend, BestIsRight trials s ∧
      s.previousResults.map (fun q => (q.1, q.2.id, q.2.config, q.2.metadata)) =
        (trials.filter (fun p => isEvaluated p.2)).map
          (fun p => (p.1, p.1, p.2.config, p.2.metadata)) ∧
      status fs trials files false false false false = ([], .ok (s.previousResults, pend)) ∧
      ∃ np npw, status fs trials files false false false true =
        ([.evaluated (trials.countP (fun p => isEvaluated p.2)), .pending np, .pendingWithWorker npw,
          .crashed (trials.countP (fun p => isFailed p.2))] ++
          (if trials.any (fun p => isEvaluated p.2) then
            [.bestLoss s.bestLoss, .bestId s.bestId, .bestConfig s.bestConfig] else []),
        .ok (s.previousResults, pend)) := by
  obtain ⟨s, hs⟩ := C40_succeeds fs trials hk hl hi
  obtain ⟨c1, c2, c3, c4⟩ := C40_counts_partial fs trials s hk hl hs
  refine ⟨s, s.pendingConfigs, C40_best fs trials s hk hl hs, ?_, by simp [status, hs], s.numPending,
    s.numPendingWithWorker, ?_⟩
  · have hlen := congrArg List.length c3
    simp only [List.length_map] at hlen
    apply List.ext_getElem (by simpa using hlen)
    intro i h1 h2
    simp only [List.length_map] at h1 h2
    have g3 : (s.previousResults.map Prod.fst)[i]'(by simpa using h1) =
        ((trials.filter (fun p => isEvaluated p.2)).map Prod.fst)[i]'(by simpa using h2) := by
      simp only [c3]
    have g4 : (s.previousResults.map (fun q => (q.2.id, q.2.config, q.2.metadata)))[i]'(by simpa using h1) =
        ((trials.filter (fun p => isEvaluated p.2)).map
          (fun p => (p.1, p.2.config, p.2.metadata)))[i]'(by simpa using h2) := by
      simp only [c4]
    simp only [List.getElem_map] at g3 g4 ⊢
    rw [g3]
    rw [Prod.mk.injEq] at g4
    simp only [Prod.mk.injEq] at g4 ⊢
    exact ⟨trivial, g4⟩
  · have hlen : s.previousResults.length = (trials.filter (fun p => isEvaluated p.2)).length := by
      have := congrArg List.length c3
      simpa using this
    simp only [status, hs, if_true, printFile, Bool.false_eq_true, if_false, c1, c2]
    rw [hlen]
    by_cases hz : (trials.filter (fun p => isEvaluated p.2)).length = 0
    · have : trials.any (fun p => isEvaluated p.2) = false := by
        rw [List.any_eq_false]
        intro p hp he
        have : p ∈ trials.filter (fun p => isEvaluated p.2) := by simp [hp, he]
        rw [List.length_eq_zero_iff.mp hz] at this
        simp at this
      simp [hz, this]
    · have : trials.any (fun p => isEvaluated p.2) = true := by
        obtain ⟨p, hp⟩ := List.exists_mem_of_length_pos (Nat.pos_of_ne_zero hz)
        rw [List.any_eq_true]
        exact ⟨p, (List.mem_filter.mp hp).1, (List.mem_filter.mp hp).2⟩
      rw [if_neg hz, this]
      simp

/-- The hypotheses are met by three trials, two of them evaluated. -/
example : (status (fun _ => none) [("1", waiting), ("2", done "2" (.num 7)), ("3", done "3" (.num 5))]
      (fun _ => none) false false false true).1 =
    [.evaluated 2, .pending 0, .pendingWithWorker 0, .crashed 0, .bestLoss (.num 5),
      .bestId (some "3"), .bestConfig (some (done "3" (.num 5)).config)] := by
  decide +kernel

/-- **C121 fails**: with one of the flags `best_losses`, `best_configs`, `all_configs`, as soon as one
trial is evaluated, `neps.status` raises `FileNotFoundError`, unless someone else has put the text
files in the directory: no part of the program writes them. -/
theorem C121_flags_fails (fs : String → Option PyFloat) (trials : List (String × Trial))
    (files : String → Option String) (hk : ById trials) (hl : ∀ p ∈ trials, HasLoss p.2)
    (hi : ∀ p ∈ trials, InfoIsDict p.2) (he : ∃ p ∈ trials, isEvaluated p.2 = true)
    (hf : files "best_loss_trajectory.txt" = none ∧
      files "best_loss_with_config_trajectory.txt" = none ∧
      files "all_losses_and_configs.txt" = none)
    (a b c : Bool) (hflag : a = true ∨ b = true ∨ c = true) :
    ∃ name, (status fs trials files a b c true).2 = .error (.fileNotFound name) := by
  obtain ⟨s, hs⟩ := C40_succeeds fs trials hk hl hi
  obtain ⟨c1, c2, c3, c4⟩ := C40_counts_partial fs trials s hk hl hs
  have hlen : s.previousResults.length ≠ 0 := by
    have := congrArg List.length c3
    simp only [List.length_map] at this
    rw [this]
    obtain ⟨p, hp, hpe⟩ := he
    exact (List.length_pos_of_mem (List.mem_filter.mpr ⟨hp, hpe⟩)).ne'
  simp only [status, hs, if_true, if_neg hlen, printFile, hf.1, hf.2.1, hf.2.2]
  cases a <;> cases b <;> cases c <;> simp at hflag ⊢

end Neps.Status
