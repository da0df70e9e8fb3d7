import Verif.Run.Spec

/-!
# Concrete runs

Settings, choices and schedules used to show that hypotheses can be met and in counterexamples.
-/

namespace Neps.Run

/-- No string is a number. -/
def noFloat : String → Option PyFloat := fun _ => none

/-- Workers without any limit that ignore errors. -/
def free : Nat → Settings := fun _ => { onError := .ignore }

/-- Let worker `w` take `n` steps with the same choice. -/
def go (w n : Nat) (c : Choice := {}) : List Act := List.replicate n (.step w c)

/-- The optimizer proposes trial `id`; the objective returns 1. -/
def propose (id : String) : Choice :=
  { ask := some ⟨id, [("x", .int 3)], none⟩, outcome := .returned (.float (.num 1)),
    now := .num 5, duration := .num 2 }

/-- Worker 0 samples trial "1", claims it, evaluates it and reports. -/
def oneTrial : List Act := go 0 8 (propose "1")

/-- Worker 0 samples trial "1"; worker 1 finds it pending; worker 0 evaluates it and reports;
then worker 1 fetches and evaluates it again. -/
def doubleEval : List Act :=
  go 0 4 (propose "1") ++ go 1 4 (propose "2") ++ go 0 4 (propose "1") ++ go 1 3 (propose "2")

/-- A choice whose objective returns a cost. -/
def withCost (id : String) (cost : PyFloat) : Choice :=
  { propose id with outcome := .returned (.dict [("loss", .int 1), ("cost", .float cost)]) }

/-- A choice whose objective raises. -/
def failing (id : String) : Choice :=
  { propose id with outcome := .raised ⟨"ValueError", "bad", true⟩ "tb" }

/-- The settings `max_evaluations_total = N`. -/
def limited (N : Nat) : Nat → Settings := fun _ => { onError := .ignore, maxEvalsTotal := some N }

end Neps.Run
