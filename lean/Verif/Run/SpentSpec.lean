import Verif.Run.Stop

/-!
# What counts towards `max_evaluations_total`

Specification, in the words of the documentation of `neps.run`: the trials that were evaluated, and, unless
`continue_until_max_evaluation_completed` is set, also those that are being evaluated.
-/

namespace Neps.Run

/-- The trials that have a report. -/
def finishedTrials (ts : List Trial) : Nat := (ts.filter fun t => t.report.isSome).length

/-- The trials without report that some worker has taken. -/
def runningTrials (ts : List Trial) : Nat :=
  (ts.filter fun t => t.report.isNone && (t.state == .evaluating || t.state == .submitted)).length

/-- The evaluations that count for a worker with these settings. -/
def spent (s : Settings) (ts : List Trial) : Nat :=
  finishedTrials ts + if s.includeInProgress = true then runningTrials ts else 0

/-- The code computes this number. -/
theorem evalCount_eq_spent (s : Settings) (ts : List Trial) : evalCount s ts = spent s ts := by
  unfold evalCount spent finishedTrials runningTrials
  split
  · induction ts with
    | nil => rfl
    | cons t ts ih =>
      rw [List.countP_cons, ih, List.filter_cons, List.filter_cons]
      unfold counted
      cases t.report <;> cases t.state <;> simp <;> omega
  · rw [List.countP_eq_length_filter]; rfl

/-- One finished and one running trial. -/
example (s : Settings) (t u : Trial) (ht : t.report.isSome) (hu : u.report = none) (hv : u.state = .evaluating) :
    spent s [t, u] = if s.includeInProgress = true then 2 else 1 := by
  have h : t.report.isNone = false := by cases h : t.report <;> simp_all
  unfold spent finishedTrials runningTrials
  simp [ht, hu, hv, h]
  split <;> rfl

end Neps.Run
