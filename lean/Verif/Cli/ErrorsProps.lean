import Verif.Cli.Errors
import Verif.Run.Props

/-!
# C152: `neps errors` shows the evaluations that failed
-/

namespace Neps.Cli

open Neps.Run

/-! ## Specification -/

/-- The command prints a block for the error `e` with traceback `tb` of an evaluation of trial `id`. -/
def Shows (o : ErrorsOutput) (id : String) (e : Exc) (tb : Option String) : Prop :=
  ∃ l b, o = .errors l ∧ b ∈ l ∧ b.trialId = id ∧ b.errType = e.cls ∧ b.message = e.msg ∧
    ∀ s, tb = some s → b.traceback = s

/-- No worker is inside `report_trial_evaluation`, nor was killed there. -/
def NobodyReports (W : World) : Prop := ∀ w, (W.worker w).pc.insideReport = false

/-! ## Trials that crashed -/

/-- Every stored trial that crashed was reported with its error. -/
def CrashInv (W : World) : Prop :=
  ∀ id t, (W.disk id).data = some t → t.state = .crashed →
    ∃ w r e, t.report = some r ∧ r.err = some e ∧ r.trialId = id ∧ (w, r) ∈ reports W.log

theorem evalTrial_crashed {fs t₀ dv o a b t r} (h : evalTrial fs t₀ dv o a b = .ok (t, r))
    (hc : t.state = .crashed) : ∃ e, r.err = some e := by
  unfold evalTrial at h
  split at h
  · rename_i e tb
    simp only [Except.ok.injEq] at h
    have : r = (t₀.setComplete .crashed a dv.lossValueOnError dv.costValueOnError
      dv.learningCurveOnError (some e) (some tb) none (some b)).2 := by rw [h]
    exact ⟨e, by rw [this]; rfl⟩
  · split at h
    · cases h
    · simp only [Except.ok.injEq] at h
      rename_i p _
      have : t = (t₀.setComplete .success a (some p.loss) p.cost p.learningCurve none none
        (some p.extra) (some b)).1 := by rw [h]
      rw [this] at hc
      cases hc

theorem reports_append (l₁ l₂ : List Event) : reports (l₁ ++ l₂) = reports l₁ ++ reports l₂ := by
  induction l₁ with
  | nil => rfl
  | cons e l ih => cases e <;> simp [reports, ih]

theorem reports_mono {l₁ l₂ : List Event} (h : l₁ <:+ l₂) {p} (hp : p ∈ reports l₁) :
    p ∈ reports l₂ := by
  obtain ⟨l, rfl⟩ := h
  rw [reports_append]
  exact List.mem_append_right _ hp

theorem CrashInv.trans {fs st W w W'} (C : Coh fs W) (I : CrashInv W) (t : Trans fs st W w W') :
    CrashInv W' := by
  have hs := t.log_suffix
  have old : ∀ id t, (W.disk id).data = some t → t.state = .crashed →
      ∃ w r e, t.report = some r ∧ r.err = some e ∧ r.trialId = id ∧ (w, r) ∈ reports W'.log := by
    intro id t h1 h2
    obtain ⟨w, r, e, a, b, c, d⟩ := I id t h1 h2
    exact ⟨w, r, e, a, b, c, reports_mono hs d⟩
  cases t with
  | idle => exact I
  | kill => exact I
  | torn s loc v n ha hpc hl hi hvn =>
    intro id t h1 h2
    refine old id t ?_ h2
    change ((W.setDisk s.id _).disk id).data = some t at h1
    simp only [World.setDisk] at h1
    split at h1
    · rename_i e; rw [e]; exact h1
    · exact h1
  | step c _ ha s =>
    cases s with
    | idle => exact I
    | move pc' m => exact I
    | fetch id h hpc hl => exact I
    | create s loc hpc hs' hl hi hv =>
      intro id t h1 h2
      change ((W.setDisk s.id _).disk id).data = some t at h1
      simp only [World.setDisk] at h1
      split at h1
      · obtain rfl := Option.some.inj h1
        cases h2
      · exact old id t h1 h2
    | claimOk id' h hpc hv =>
      intro id t h1 h2
      change ((W.setDisk id' _).disk id).data = some t at h1
      simp only [World.setDisk] at h1
      split at h1
      · obtain rfl := Option.some.inj h1
        cases h2
      · exact old id t h1 h2
    | claimLost id h pc' n hpc hv ho => exact fun id t h1 h2 => old id t h1 h2
    | evalErr id h e hpc he => exact fun id t h1 h2 => old id t h1 h2
    | evalOk id h t r hpc he => exact fun id t h1 h2 => old id t h1 h2
    | reportOk id' h t' r hpc hv =>
      intro id t h1 h2
      change ((W.setDisk id' _).disk id).data = some t at h1
      simp only [World.setDisk] at h1
      split at h1
      · rename_i he
        obtain rfl := Option.some.inj h1
        obtain ⟨k1, k2, k3, k4⟩ := C.holds w id' h (by rw [hpc]; rfl)
        obtain ⟨dv, o, a, b, hr⟩ := C.result w id' h t' r hpc
        obtain ⟨e1, e2, e3, e4⟩ := evalTrial_ok hr
        obtain ⟨e, hee⟩ := evalTrial_crashed hr h2
        refine ⟨w, r, e, rfl, hee, ?_, List.mem_cons_self⟩
        rw [he]
        exact e4.trans k3
      · exact old id t h1 h2
    | budget t r pc' hpc ho => exact fun id t h1 h2 => old id t h1 h2
    | logErr t r e hpc => exact fun id t h1 h2 => old id t h1 h2

theorem crashInv_run (fs st as) : CrashInv (run fs st {} as) := by
  have h := run_induction fs st (P := fun W => Coh fs W ∧ CrashInv W) (W := {})
    (fun W w W' I t => ⟨I.1.trans t, I.2.trans I.1 t⟩)
    ⟨Coh.init fs, by simp [CrashInv, Store.Disk.empty]⟩ as
  exact h.2

/-! ## Properties -/

/-- **C152**: the errors are listed in the order in which the workers appended them, one block for
each append, and there is nothing else; "no errors" is printed exactly if nothing was appended. -/
theorem C152_order (fs : String → Option PyFloat) (st : Nat → Settings) (as : List Act) :
    let W := run fs st {} as
    (errorsCommand true (some W.errs) = .noErrors ↔ appends W.log = []) ∧
    (appends W.log ≠ [] → errorsCommand true (some W.errs) =
      .errors ((appends W.log).reverse.map fun p =>
        ⟨p.2.trialId, p.2.workerId, p.2.errType, p.2.err, p.2.tb.getD "None"⟩)) := by
  intro W
  have he : W.errs = ((appends W.log).map Prod.snd).reverse := by
    rw [← (bookInv_run fs st as).errs, List.reverse_reverse]
  constructor
  · simp only [errorsCommand, he]
    by_cases h : appends W.log = []
    · simp [h]
    · simp [h]
  · intro hne
    have : (W.errs).isEmpty = false := by rw [he]; simpa using hne
    simp only [errorsCommand, this]
    rw [he, ← List.map_reverse, List.map_map]
    rfl

/-- **C152** (partial: no worker is inside `report_trial_evaluation`, nor was killed there): the
command shows every trial that crashed, with its error and traceback, and shows nothing but errors of
evaluations that were reported. -/
theorem C152_crashed_partial (fs : String → Option PyFloat) (st : Nat → Settings) (as : List Act)
    (hout : NobodyReports (run fs st {} as)) :
    (∀ id t, (run fs st {} as).stored id = some t → t.state = .crashed →
      ∃ r e, t.report = some r ∧ r.err = some e ∧
        Shows (errorsCommand true (some (run fs st {} as).errs)) id e r.tb) ∧
    (∀ l, errorsCommand true (some (run fs st {} as).errs) = .errors l → ∀ b ∈ l,
      ∃ w r e, (w, r) ∈ reports (run fs st {} as).log ∧ r.err = some e ∧ b.trialId = r.trialId ∧
        b.workerId = workerName w ∧ b.errType = e.cls ∧ b.message = e.msg ∧
        b.traceback = r.tb.getD "None") := by
  obtain ⟨h1, h2, -⟩ := C11_error_log fs st as hout
  constructor
  · intro id t ht hc
    have hd : ((run fs st {} as).disk id).data = some t := (stored_eq_some.mp ht).2
    obtain ⟨w, r, e, hr, hre, hid, hm⟩ := crashInv_run fs st as id t hd hc
    refine ⟨r, e, hr, hre, ?_⟩
    have hx : (w, (⟨r.trialId, workerName w, e.cls, e.msg, r.tb⟩ : ErrEntry)) ∈
        appends (run fs st {} as).log := by
      rw [h2.mem_iff, List.mem_filterMap]
      exact ⟨(w, r), hm, by simp [expectedEntry, hre]⟩
    have hy : (⟨r.trialId, workerName w, e.cls, e.msg, r.tb⟩ : ErrEntry) ∈ (run fs st {} as).errs := by
      rw [h1, List.mem_reverse]
      exact List.mem_map_of_mem hx
    have hne : (run fs st {} as).errs.isEmpty = false := by
      cases h : (run fs st {} as).errs with
      | nil => rw [h] at hy; cases hy
      | cons => rfl
    refine ⟨_, _, by simp only [errorsCommand, hne]; rfl, List.mem_map_of_mem hy, hid, rfl, rfl, ?_⟩
    rintro s hs
    simp [errorLines, hs]
  · intro l hl b hb
    simp only [errorsCommand, if_true] at hl
    split at hl
    · cases hl
    · obtain rfl := ErrorsOutput.errors.inj hl
      obtain ⟨x, hx, rfl⟩ := List.mem_map.mp hb
      rw [h1, List.mem_reverse] at hx
      obtain ⟨⟨w, x'⟩, hw, rfl⟩ := List.mem_map.mp hx
      rw [h2.mem_iff, List.mem_filterMap] at hw
      obtain ⟨⟨w', r⟩, hm, he⟩ := hw
      unfold expectedEntry at he
      split at he
      · cases he
      · rename_i e hre
        simp only [Option.some.injEq, Prod.mk.injEq] at he
        obtain ⟨rfl, rfl⟩ := he
        exact ⟨w', r, e, hm, hre, rfl, rfl, rfl, rfl, rfl⟩

/-- A directory without a run is not mistaken for a run without errors. -/
theorem C152_no_run (isDir : Bool) (state : Option (List ErrEntry)) :
    (errorsCommand isDir state = .noErrors → isDir = true ∧ state = some []) ∧
    (errorsCommand isDir state = .noDirectory ↔ isDir = false) := by
  cases isDir <;> cases state with
  | none => simp [errorsCommand]
  | some errs => cases errs <;> simp [errorsCommand]

/-- **C152 fails after a kill**: a worker that is killed after it stored the trial and before it
appended the error leaves a trial that crashed, while `neps errors` says that there are
none. -/
theorem C152_killed_fails :
    let W := run noFloat free {} (go 0 7 (failing "1") ++ [.kill 0])
    (W.stored "1").map (·.state) = some .crashed ∧
    errorsCommand true (some W.errs) = .noErrors := by decide +kernel

/-- Hypotheses of `C152_crashed_partial`: two workers, two trials that crashed, nobody reports. -/
example :
    let W := run noFloat free {} (go 0 9 (failing "1") ++ go 1 10 (failing "2"))
    (W.worker 0).pc.insideReport = false ∧ (W.worker 1).pc.insideReport = false ∧
    (W.stored "1").map (·.state) = some .crashed ∧ (W.stored "2").map (·.state) = some .crashed ∧
    errorsCommand true (some W.errs) =
      .errors [⟨"1", "0", "ValueError", "bad", "tb"⟩, ⟨"2", "1", "ValueError", "bad", "tb"⟩] := by
  decide +kernel

end Neps.Cli
