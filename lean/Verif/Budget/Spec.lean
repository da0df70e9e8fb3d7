import Verif.Budget.Model
import Verif.Create.Spec

/-!
# What an optimizer should be told
-/

namespace Neps.Budget

open Neps.Create (IVal)

/-- The cost that an event adds to the budget. -/
def Event.cost : Event → PyFloat
  | .charged (some k) => k
  | _ => 0

/-- What was used: the sum of the costs of the evaluations that were reported. -/
def used (l : List Event) : PyFloat := (l.map Event.cost).sum

/-- The number of evaluations that were reported. -/
def evaluations (l : List Event) : Nat :=
  (l.filter fun e => match e with | .reported _ => true | _ => false).length

/-- Every report also reached the budget. -/
def AllCharged (l : List Event) : Prop :=
  l.filterMap (fun e => match e with | .reported c => some c | _ => none) =
    l.filterMap (fun e => match e with | .charged c => some c | _ => none)

/-- Nothing the optimizer wants to keep contains an object that YAML cannot represent. -/
def Keepable (l : List (Nat × Op)) : Prop :=
  ∀ p reply, (p, Op.ask reply) ∈ l → ∀ b keep, reply b = .configAnd keep → ¬ keep.HasObj

/-- The limits with which `neps.run` was first called. -/
def firstLimits : List (Nat × Op) → Option (Option PyFloat × Option Int)
  | [] => none
  | (_, .launch mc me) :: _ => some (mc, me)
  | _ :: l => firstLimits l

/-- Every call of `neps.run` has these limits. -/
def AllLimits (mc : Option PyFloat) (me : Option Int) (l : List (Nat × Op)) : Prop :=
  ∀ p mc' me', (p, Op.launch mc' me') ∈ l → mc' = mc ∧ me' = me

/-- Process `p` has called `neps.run`. -/
def Launched (p : Nat) (l : List (Nat × Op)) : Prop := ∃ mc me, (p, Op.launch mc me) ∈ l

/-- The same answer without the state to keep. -/
def Reply.forget : Reply → Reply
  | .configAnd _ => .config
  | r => r

/-- The same operation with an optimizer that keeps nothing. -/
def Op.forget : Op → Op
  | .ask reply => .ask fun b => (reply b).forget
  | op => op

/-- The same history with an optimizer that never keeps anything. -/
def forget (l : List (Nat × Op)) : List (Nat × Op) := l.map fun x => (x.1, x.2.forget)

end Neps.Budget
