import Verif.Run.LineageModel
import Verif.Run.Spec

/-!
# Vocabulary for the directories of trials
-/

namespace Neps.Run

/-- `Lineage W id t`: `t` is the first trial of the chain of predecessors that starts at trial `id`.
-/
inductive Lineage (W : World) : String → Trial → Prop
  | first (id t) : W.stored id = some t → t.metadata.previousTrialId = none → Lineage W id t
  | next (id t p r) : W.stored id = some t → t.metadata.previousTrialId = some p → Lineage W p r →
      Lineage W id r

/-- The trial a call of `get_initial_directory` is about. -/
def Meant (W : World) : DirArg → String → Prop
  | .dir name, id => name = "config_" ++ id ∧ (W.stored id).isSome
  | .inProgress w, id => ∃ h, (W.worker w).pc = .eval id h

end Neps.Run
