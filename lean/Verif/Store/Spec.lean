import Verif.Store.Model

/-!
# Vocabulary for stating properties of shared resources

Everything here looks only at the log of finished calls (newest first), never at the state of
the model.
-/

namespace Neps.Store

variable {D : Type}

/-- The call wrote to the resource. -/
def Event.isWrite (e : Event D) : Bool :=
  match e.out with
  | .wrote _ => true
  | _ => false

/-- The call did not raise. -/
def Event.isOk (e : Event D) : Bool :=
  match e.out with
  | .raised _ => false
  | _ => true

/-- The value of the most recent successful write in a log (newest first). -/
def lastWrite : List (Event D) → Option D
  | [] => none
  | e :: rest =>
    match e.out with
    | .wrote x => some x
    | _ => lastWrite rest

/-- Worker `w` has opened the resource: one of its calls succeeded. -/
def opened (w : Nat) (log : List (Event D)) : Bool :=
  log.any (fun e => e.who == w && e.isOk)

/-- No other worker has written since worker `w`'s last successful call. -/
def inDate (w : Nat) : List (Event D) → Bool
  | [] => false
  | e :: rest =>
    if e.who = w ∧ e.isOk then true
    else if e.isWrite then false
    else inDate w rest

end Neps.Store
