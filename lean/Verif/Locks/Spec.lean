import Verif.Locks.Model

/-!
# What should never happen with locks
-/

namespace Neps.Locks

/-- Process `p` waits for lock `l`: its next step is to take it, and somebody has it. -/
def Waits (W : World) (p : Nat) (l : Lock) : Prop :=
  (∃ is, (W p).todo = .acq l :: is) ∧ ∃ q, l ∈ (W q).held

/-- Process `p` is in the middle of an operation. -/
def Busy (W : World) (p : Nat) : Prop := (W p).todo ≠ []

/-- Process `p` runs the user's code `w`. -/
def Runs (W : World) (p : Nat) (w : Work) : Prop := ∃ is, (W p).todo = .work w :: is

/-- The action is a step. -/
def Act.isStep : Act → Bool
  | .step _ => true
  | _ => false

/-- The action neither lets an exception reach process `p` nor ends it. -/
def Act.spares (p : Nat) : Act → Prop
  | .raise q | .kill q => q ≠ p
  | _ => True

/-- Neither the optimizer nor a hook looks at the run while it is asked for a configuration. -/
def Operation.quiet : Operation → Prop
  | .sample _ look _ => look = none
  | _ => True

/-- All operations are quiet. -/
def Quiet (as : List Act) : Prop := ∀ p op, Act.start p op ∈ as → op.quiet

/-- The processes that begin something are among the first `n`. -/
def Among (n : Nat) (as : List Act) : Prop := ∀ p op, Act.start p op ∈ as → p < n

end Neps.Locks
