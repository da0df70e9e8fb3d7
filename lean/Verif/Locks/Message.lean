import Verif.Locks.Spec
import Verif.Locks.Env

/-!
# Model of the exception of a lock that is not free in time

`FileLocker.lock`, `neps/state/filebased.py:456-489`: the body of the `with` statement runs inside the
`try` whose handler turns an exception of the locks into one with a message, so that the handler also
sees the exceptions of locks that are taken inside.
-/

namespace Neps.Locks

/-- An exception. -/
inductive Raised
  /-- `LockException` of `portalocker`. -/
  | portalocker
  /-- `LockException` with the message of `neps/state/filebased.py:480-488`: the timeout and the path in
  it, and the exception it was raised from. -/
  | timedOut (timeout : Option PyFloat) (path : Lock) (cause : Raised)
  /-- Any other exception. -/
  | other (tag : Nat)
deriving DecidableEq, Repr

/-- `except pl.exceptions.LockException`: is it one? -/
def Raised.isLockException : Raised → Bool
  | .portalocker | .timedOut .. => true
  | .other _ => false

/-- The waiting of a lock: `neps/state/filebased.py:107-108,153-154,627-670`. The lock of the CSV files
is a `neps.utils._locker.Locker`, of which no timeout is asked (`neps/status/status.py:302`). -/
def Lock.timeout (T : Resource → Option PyFloat) : Lock → Option PyFloat
  | .info => T .info
  | .seed => T .seed
  | .errors => T .errors
  | .optState => T .optState
  | .trial _ => T .trial
  | .csv => none

/-- An exception leaves the `with` statement of a lock, `neps/state/filebased.py:479-488`; that of the
CSV files, `neps/utils/_locker.py:31-46`, has no handler. -/
def leave (T : Resource → Option PyFloat) (x : Raised) (l : Lock) : Raised :=
  if l = .csv then x
  else if x.isLockException then .timedOut (l.timeout T) l x
  else x

/-- An exception leaves all the `with` statements of the locks a process has, newest first. -/
def leaveAll (T : Resource → Option PyFloat) (held : List Lock) (x : Raised) : Raised :=
  held.foldl (leave T) x

/-- A process that has the locks `held` gives up waiting for `l`: `pl.Lock` raises inside the `try`
of `l`, `neps/state/filebased.py:470-477`. -/
def giveUp (T : Resource → Option PyFloat) (held : List Lock) (l : Lock) : Raised :=
  leaveAll T held (leave T .portalocker l)

end Neps.Locks
