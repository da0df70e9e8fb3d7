import Verif.Create.Watch
import Verif.Create.Spec

/-!
# Vocabulary for the properties of looking at a run
-/

namespace Neps.Create

variable {V : Type}

/-- The actions of the schedule that are not looks. -/
def workOf : List (SceneAct V) → List (Act V)
  | [] => []
  | .work a :: s => a :: workOf s
  | _ :: s => workOf s

/-- The root directory is not deleted in the schedule. -/
def NoOverwrite (s : List (SceneAct V)) : Prop := SceneAct.overwrite ∉ s

/-- Watcher `o` is neither killed nor looks again in the schedule. -/
def Undisturbed (o : Nat) (s : List (SceneAct V)) : Prop :=
  SceneAct.kill o ∉ s ∧ SceneAct.look o ∉ s

/-- The look of `o` returned. -/
def Scene.Saw (S : Scene V) (o : Nat) : Prop := (S.watcher o).pc = .done

/-- The look of `o` raised `e`. -/
def Scene.LookRaised (S : Scene V) (o : Nat) (e : LookErr) : Prop := (S.watcher o).pc = .failed e

/-- Watcher `o` is not in the middle of a look. -/
def Scene.LookFree (S : Scene V) (o : Nat) : Prop :=
  (S.watcher o).pc = .idle ∨ (S.watcher o).pc = .done ∨ ∃ e, (S.watcher o).pc = .failed e

/-- In the schedule, nobody is killed while writing a resource for the first time. -/
def SafeScene (F : Format V) (W : World V) (s : List (SceneAct V)) : Prop :=
  SafeKills F W (workOf s)

/-- How many steps watcher `o` makes in the schedule. -/
def looksOf (o : Nat) : List (SceneAct V) → Nat
  | [] => 0
  | .step q :: s => (if q = o then 1 else 0) + looksOf o s
  | _ :: s => looksOf o s

end Neps.Create
