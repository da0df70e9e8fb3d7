import Verif.Overwrite.Model

/-!
# Specification for C162
-/

namespace Neps.Overwrite

/-- Trial `id` is stored, with these contents. -/
def World.Stored (W : World) (id : Nat) (e : Entry) : Prop := (id, Slot.trial e) ∈ W.slots

/-- Nothing is stored. -/
def World.Nothing (W : World) : Prop := ∀ id e, ¬ W.Stored id e

/-- Process `w` is evaluating trial `id`, which is configuration `c`. -/
def World.Evaluates (W : World) (w id c : Nat) : Prop := ∃ v, W.status w = .evaluating id v c

/-- Process `w` is not in `neps.run`. -/
def World.Off (W : World) (w : Nat) : Prop := W.status w = .off

/-- Process `w` left `neps.run` with an exception. -/
def World.Raised (W : World) (w : Nat) : Prop := W.status w = .raised

/-- The event starts a worker with `overwrite_working_directory=True`. -/
def Event.Overwrites : Event → Prop
  | .launch _ true _ => True
  | _ => False

/-- Nobody is started with `overwrite_working_directory=True`. -/
def NoOverwrite (s : List Event) : Prop := ∀ a ∈ s, ¬ a.Overwrites

/-- Whenever a worker is started with `overwrite_working_directory=True`, nobody is evaluating. -/
def Calm (s : List Event) : Prop :=
  ∀ p a t, s = p ++ a :: t → a.Overwrites →
    ∀ w id c, ¬ (run .empty p).Evaluates w id c

/-- Every worker that is started gets the search space `sp`, and none gets
`overwrite_working_directory=True`. -/
def JoinWith (sp : Nat) (s : List Event) : Prop :=
  ∀ a ∈ s, ∀ w over sp', a = .launch w over sp' → over = false ∧ sp' = sp

end Neps.Overwrite
