import Verif.Run.Model

/-!
# Vocabulary for the properties of a run

Everything here is defined by looking at the world from outside: the stored trials, and the
sequence of things that happened.
-/

namespace Neps.Run

/-- The trial stored in the directory of `id`, if there is a readable one. -/
def World.stored (W : World) (id : String) : Option Trial :=
  match Store.load (W.disk id) with
  | .ok h => some h.cur
  | .error _ => none

/-- The data of a trial fixed when it was sampled: configuration, id, predecessor, sampling worker
and time. -/
structure SampledPart where
  config : List (String × PyVal)
  id : String
  location : String
  previousTrialId : Option String
  previousTrialLocation : Option String
  samplingWorkerId : String
  timeSampled : PyFloat
deriving DecidableEq, Repr

/-- See `SampledPart`. -/
def _root_.Neps.Trial.sampledPart (t : Trial) : SampledPart :=
  ⟨t.config, t.metadata.id, t.metadata.location, t.metadata.previousTrialId,
   t.metadata.previousTrialLocation, t.metadata.samplingWorkerId, t.metadata.timeSampled⟩

/-- The evaluations that happened: worker and trial, newest first. -/
def evaluations : List Event → List (Nat × String)
  | [] => []
  | .evaluated w id _ :: l => (w, id) :: evaluations l
  | _ :: l => evaluations l

/-- The successful claims: worker, trial, and the trial as the worker had fetched it. -/
def claims : List Event → List (Nat × String × Trial)
  | [] => []
  | .claimed w id t :: l => (w, id, t) :: claims l
  | _ :: l => claims l

/-- The reports that were stored, with the worker, newest first. -/
def reports : List Event → List (Nat × Report)
  | [] => []
  | .reported w _ r :: l => (w, r) :: reports l
  | _ :: l => reports l

/-- The costs charged to the shared budget, newest first. -/
def charges : List Event → List (Nat × Report)
  | [] => []
  | .charged w r :: l => (w, r) :: charges l
  | _ :: l => charges l

/-- The appends to the shared error log, newest first. -/
def appends : List Event → List (Nat × ErrEntry)
  | [] => []
  | .logged w e :: l => (w, e) :: appends l
  | _ :: l => appends l

/-- The entry the error log should have for a report. -/
def expectedEntry (p : Nat × Report) : Option (Nat × ErrEntry) :=
  match p.2.err with
  | none => none
  | some e => some (p.1, { trialId := p.2.trialId, workerId := workerName p.1, errType := e.cls,
                           err := e.msg, tb := p.2.tb })

/-- The refused claims of worker `w` since its last successful one; `none` if there was none. -/
def refusedSinceClaim (w : Nat) : List Event → Option Nat
  | [] => none
  | .claimed w' _ _ :: l => if w' = w then some 0 else refusedSinceClaim w l
  | .claimLost w' _ :: l =>
    if w' = w then (refusedSinceClaim w l).map (· + 1) else refusedSinceClaim w l
  | _ :: l => refusedSinceClaim w l

/-- How often the objective was called for `id`. -/
def timesEvaluated (log : List Event) (id : String) : Nat :=
  (evaluations log).countP (fun p => p.2 == id)

/-- How often worker `w` called the objective. -/
def callsBy (log : List Event) (w : Nat) : Nat :=
  (evaluations log).countP (fun p => p.1 == w)

/-- The worker is between storing a report and having charged its cost and logged its error. -/
def PC.insideReport : PC → Bool
  | .budget _ _ | .logErr _ _ _ => true
  | _ => false

/-- The worker lists the trials and checks the totals before it calls the objective again (if it
ever does). -/
def PC.checksFirst : PC → Bool
  | .sweep _ _ | .pendList | .pend _ _ | .fetch _ | .sample | .claim _ _ | .eval _ _ => false
  | _ => true

/-- All readable trials of the run. -/
def World.trials (W : World) : List Trial := W.ids.filterMap W.stored

/-- All actions of the schedule are by workers satisfying `p`. -/
def OnlyBy (p : Nat → Prop) (as : List Act) : Prop := ∀ a ∈ as, p a.who

end Neps.Run
