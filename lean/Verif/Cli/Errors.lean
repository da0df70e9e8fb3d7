import Verif.Run.Stop

/-!
# Model of `neps errors`
-/

namespace Neps.Cli

open Neps.Run

/-- The lines about one error, `neps/utils/cli.py:291-298`. -/
structure ErrorLines where
  trialId : String
  workerId : String
  errType : String
  message : String
  traceback : String
deriving DecidableEq, Repr

/-- What `neps errors` prints. -/
inductive ErrorsOutput
  | noDirectory
  | noState
  | noErrors
  | errors (l : List ErrorLines)
deriving DecidableEq, Repr

/-- The lines for an error, `neps/utils/cli.py:291-298`; `f"{None}"` is `"None"`. -/
def errorLines (e : ErrEntry) : ErrorLines :=
  { trialId := e.trialId, workerId := e.workerId, errType := e.errType, message := e.err
    traceback := e.tb.getD "None" }

/-- `load_neps_errors`, `neps/utils/cli.py:266-298`. `isDir` says whether the directory exists; the
state is `none` if there is no NePS state in it, and the errors of the run otherwise
(`NePSState.get_errors`, `neps/state/neps_state.py:191-193`). -/
def errorsCommand (isDir : Bool) (state : Option (List ErrEntry)) : ErrorsOutput :=
  if isDir then
    match state with
    | none => .noState
    | some errs => if errs.isEmpty then .noErrors else .errors (errs.map errorLines)
  else .noDirectory

end Neps.Cli
