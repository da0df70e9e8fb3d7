import Verif.Run.TogetherSpec

/-!
# Specification: the worker that took up the latest trial
-/

namespace Neps.Run

/-- No process is killed in the middle of creating a trial directory. -/
def Untorn (a : Act) : Prop := ∀ w c torn, a ≠ .killCreating w c torn

/-- The worker that took up (set to evaluating) the latest trial; `none` if there was none yet. -/
def lastClaimer (W : World) : Option Nat := (claims W.log).head?.map (·.1)

/-- An exception of the protocol between the workers: it is not one of the optimizer (`ask`), not one
of an objective whose result cannot be understood, and not one that `neps.run` was asked to raise. -/
def RunErr.conflict : RunErr → Bool
  | .sweepFailed | .unboundCounter | .claimFailedTooOften | .reportRejected => true
  | .workerRaise | .failedToGetNext | .evaluation _ => false

/-- The trial was evaluated: its report is stored, and its state says how the evaluation ended. -/
def Evaluated (t : Trial) : Prop := ∃ r, t.report = some r ∧ t.state = r.reportedAs.state

/-- If the worker calls the objective in this action, the result can be understood. An objective that
raises is fine. -/
def Understood (fs : String → Option PyFloat) (st : Nat → Settings) (a : Act) : Prop :=
  ∀ w c v, a = .step w c → c.outcome = .returned v →
    ∃ p, parseUserResult fs v (st w).dv.costIfNotProvided (st w).dv.learningCurveIfNotProvided = .ok p

/-- If the worker asks the optimizer in this action, it gets a proposal with a new id, and the trial to
be continued, if any, exists. -/
def Answered (W : World) (a : Act) : Prop :=
  ∀ w c, a = .step w c → (W.worker w).pc = .sample →
    ∃ p, c.ask = some p ∧ p.id ∉ W.ids ∧ ∀ q, p.previousId = some q → q ∈ W.ids

end Neps.Run
