import Verif.Process.Model

/-!
# What a user expects of several runs in one process
-/

namespace Neps.Proc

variable {S T : Type}

/-- The trials stored as being evaluated, in order. -/
def claims (events : List (Event S T)) : List (S × T) :=
  events.filterMap fun | .claimed s t => some (s, t) | _ => none

/-- The calls of objectives, in order. -/
def starts (events : List (Event S T)) : List (S × T) :=
  events.filterMap fun | .started s t => some (s, t) | _ => none

/-- The trials with a stored result, in order. -/
def reports (events : List (Event S T)) : List (S × T) :=
  events.filterMap fun | .reported s t => some (s, t) | _ => none

/-- The keys with a callback, in the order of their first registration. -/
def registrations (keys : List String) : List (Event S T) → List String
  | [] => keys
  | .registered key :: events =>
    registrations (if key ∈ keys then keys else keys ++ [key]) events
  | _ :: events => registrations keys events

/-- The code never calls `neps.run`. -/
def Code.noRun : Code S T → Prop
  | .done | .raise | .interrupt => True
  | .look rest => rest.noRun
  | .register _ rest => rest.noRun
  | .attempt body rest => body.noRun ∧ rest.noRun
  | .run .. => False

/-- The code is never interrupted. -/
def Code.noInterrupt : Code S T → Prop
  | .done | .raise => True
  | .interrupt => False
  | .look rest => rest.noInterrupt
  | .register _ rest => rest.noInterrupt
  | .attempt body rest => body.noInterrupt ∧ rest.noInterrupt
  | .run _ _ _ rest => rest.noInterrupt

/-- No objective calls `neps.run`, is interrupted or returns something that is not a result. -/
def Evals.plain : Evals S T → Prop
  | .nil => True
  | .cons _ objective valid rest =>
    objective.noRun ∧ objective.noInterrupt ∧ valid = true ∧ rest.plain

/-- The same of all runs in the code.  The code itself may be interrupted between the runs. -/
def Code.plain : Code S T → Prop
  | .done | .raise | .interrupt => True
  | .look rest => rest.plain
  | .register _ rest => rest.plain
  | .attempt body rest => body.plain ∧ rest.plain
  | .run _ _ evals rest => evals.plain ∧ rest.plain

/-- No objective calls `neps.run`; it may do anything else. -/
def Evals.flat : Evals S T → Prop
  | .nil => True
  | .cons _ objective _ rest => objective.noRun ∧ rest.flat

/-- The same of all runs in the code. -/
def Code.flat : Code S T → Prop
  | .done | .raise | .interrupt => True
  | .look rest => rest.flat
  | .register _ rest => rest.flat
  | .attempt body rest => body.flat ∧ rest.flat
  | .run _ _ evals rest => evals.flat ∧ rest.flat

end Neps.Proc
