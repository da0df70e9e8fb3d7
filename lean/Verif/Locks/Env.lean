import Verif.Basic.PyFloat

/-!
# Model of `neps/env.py`

How long a process waits for a lock is read from the environment when `neps` is imported.

`float` on texts is an argument, of which nothing is assumed; `none` is `ValueError`.
-/

namespace Neps.Locks

/-- The resources with a lock whose waiting is configured, `neps/env.py:31-84`. -/
inductive Resource
  | trial | seed | info | optState | errors
deriving DecidableEq, Repr

/-- The variable with the polling interval, `neps/env.py:32,43,54,65,76`. -/
def Resource.pollKey : Resource → String
  | .trial => "NEPS_TRIAL_FILELOCK_POLL"
  | .seed => "NEPS_SEED_SNAPSHOT_FILELOCK_POLL"
  | .info => "NEPS_OPTIMIZER_INFO_FILELOCK_POLL"
  | .optState => "NEPS_OPTIMIZER_STATE_FILELOCK_POLL"
  | .errors => "NEPS_GLOBAL_ERR_FILELOCK_POLL"

/-- The variable with the timeout, `neps/env.py:37,48,59,70,81`. -/
def Resource.timeoutKey : Resource → String
  | .trial => "NEPS_TRIAL_FILELOCK_TIMEOUT"
  | .seed => "NEPS_SEED_SNAPSHOT_FILELOCK_TIMEOUT"
  | .info => "NEPS_OPTIMIZER_INFO_FILELOCK_TIMEOUT"
  | .optState => "NEPS_OPTIMIZER_STATE_FILELOCK_TIMEOUT"
  | .errors => "NEPS_GLOBAL_ERR_FILELOCK_TIMEOUT"

/-- `is_nullable`, `neps/env.py:26-28`. Simplification: `lower` changes ASCII letters only; no other
character becomes one of the letters of these words. -/
def isNullable (e : String) : Bool := ["none", "n", "null"].contains e.toLower

/-- `get_env`, `neps/env.py:15-23`; the dictionary `ENV_VARS_USED` is a list of what was set, latest
first. `none` is the exception of `parse`. -/
def getEnv {T : Type} (env : String → Option String) (key : String) (parse : String → Option T)
    (default : T) : Option (T × (String × Option String × T)) :=
  match env key with
  | some e =>
    match parse e with
    | some v => some (v, (key, some e, v))
    | none => none
  | none => some (default, (key, none, default))

/-- `parse` of the timeouts, `neps/env.py:38,49,60,71,82`; the value `none` is Python's `None`. -/
def parseTimeout (float : String → Option PyFloat) (e : String) : Option (Option PyFloat) :=
  if isNullable e then some none else (float e).map some

/-- How to wait for the lock of a resource. -/
structure Waiting where
  poll : PyFloat
  timeout : Option PyFloat
deriving DecidableEq, Repr

/-- What is known about a variable, an entry of `ENV_VARS_USED`: its name, its text if it is set, and
the value that is used. -/
abbrev Used := String × Option String × Option PyFloat

/-- The two variables of a resource, for example `neps/env.py:31-40`. -/
def readResource (float : String → Option PyFloat) (env : String → Option String) (r : Resource) :
    Option (Waiting × List Used) :=
  match getEnv env r.pollKey float (.num (1 / 20)) with
  | none => none
  | some (p, k, e, v) =>
    match getEnv env r.timeoutKey (parseTimeout float) (some (.num 120)) with
    | none => none
    | some (t, u) => some (⟨p, t⟩, [(k, e, some v), u])

/-- The resources in the order of the file, `neps/env.py:31-84`. -/
def resources : List Resource := [.trial, .seed, .info, .optState, .errors]

/-- What importing `neps/env.py` yields: for every resource how to wait, and `ENV_VARS_USED`; `none`
if the import fails. -/
def importEnv (float : String → Option PyFloat) (env : String → Option String) :
    Option (List (Resource × Waiting) × List Used) :=
  match resources.mapM fun r => (readResource float env r).map fun x => ((r, x.1), x.2) with
  | none => none
  | some l => some (l.map Prod.fst, (l.map Prod.snd).flatten)

end Neps.Locks
