import Verif.Basic.PyVal

/-!
# Creating or loading the shared state of a run

Model of `create_or_load_filebased_neps_state` (`neps/state/filebased.py:562-671`) with
`Synced.new_or_load` (`neps/state/protocols.py:441-489`) at the level of single file operations,
for any number of processes that call it and may be killed at any point.

Simplifications, for the whole file:
* the subdirectories (`filebased.py:596-605`) are not separate from the root directory: reading a
  file raises the same exception whether its directory or the file is missing;
* a version file is present or not, and is written in one operation; the data of a resource is one
  file that is opened (and thereby emptied) in one operation and filled in a second one;
* the lock of a resource (`filebased.py:430-487`) is mutual exclusion that ends when its holder is
  killed, a process that finds it taken waits, and there is no timeout.
-/

namespace Neps.Create

/-- The four shared resources, in the order in which they are created
(`neps/state/filebased.py:627-670`). -/
inductive Res
  | info | seed | errors | state
deriving DecidableEq, Repr

/-- The resource that is created after a resource (`neps/state/filebased.py:627-670`). -/
def Res.next : Res → Option Res
  | .info => some .seed
  | .seed => some .errors
  | .errors => some .state
  | .state => none

/-- The data file of a resource. -/
inductive File (V : Type)
  | missing
  /-- opened for writing and not filled yet -/
  | torn
  /-- reading the file returns `v` -/
  | whole (v : V)
deriving DecidableEq, Repr

/-- The files of one resource: whether there is a version file, and the data file. -/
structure Cell (V : Type) where
  ver : Bool
  data : File V
deriving DecidableEq, Repr

/-- Nothing has been written. -/
def Cell.empty {V : Type} : Cell V := ⟨false, .missing⟩

/-- Exceptions: `FileNotFoundError`; reading a file that is not complete, or writing a value that
cannot be written (`neps/utils/files.py:50-58, 66-70`); the mismatch
(`neps/state/filebased.py:618-623`). -/
inductive Err
  | fileNotFound | unreadable | unwritable | mismatch
deriving DecidableEq, Repr

/-- What is stored in and read from the files, and how infos are compared.
`roundtrip r v` is what reading resource `r` returns after `v` was written, `none` if writing
raises; `same stored given` is the negation of `existing_info != optimizer_info`
(`neps/state/filebased.py:618`). -/
structure Format (V : Type) where
  roundtrip : Res → V → Option V
  same : V → V → Bool

/-- Where a process is in its call (`neps/state/filebased.py:593-671`). -/
inductive PC
  /-- not in a call -/
  | idle
  /-- before `directory.exists()` (`filebased.py:593`) -/
  | start
  /-- before `directory.mkdir` (`filebased.py:594`) -/
  | mkdir (isNew : Bool)
  /-- before the info on disk is read without a lock (`filebased.py:615-623`) -/
  | check
  /-- before `Synced.new` takes the lock (`protocols.py:384`) -/
  | create (r : Res)
  /-- in `VersionedResource.new`, after the version was bumped (`protocols.py:200`) -/
  | openFile (r : Res)
  /-- in `VersionedResource.new`, after the data file was opened (`protocols.py:201`) -/
  | fill (r : Res)
  /-- before `Synced.load` takes the lock (`protocols.py:421`) -/
  | load (r : Res)
  /-- returned -/
  | done
  /-- raised -/
  | failed (e : Err)
deriving DecidableEq, Repr

/-- A process: the values it was called with (`optimizer_info`, `SeedSnapshot.new_capture()`,
`ErrDump()`, `optimizer_state`), where it is, and the values of the resources of the `NePSState` it
builds. -/
structure Proc (V : Type) where
  given : Res → V
  pc : PC
  got : Res → Option V

/-- The file system and the processes. -/
structure World (V : Type) where
  /-- the root directory exists -/
  root : Bool
  cell : Res → Cell V
  /-- who is inside the lock of a resource -/
  lock : Res → Option Nat
  proc : Nat → Proc V

variable {V : Type}

/-- Replace the value of a function at one place. -/
def set {α β : Type} [DecidableEq α] (f : α → β) (a : α) (b : β) : α → β :=
  fun x => if x = a then b else f x

/-- After resource `r` is there: the next resource, or return. -/
def PC.after (r : Res) : PC :=
  match r.next with
  | some r' => .create r'
  | none => .done

/-- One file operation of process `p`.
`neps/state/filebased.py:593-671`, `neps/state/protocols.py:165-251, 357-489`. -/
def step (F : Format V) (W : World V) (p : Nat) : World V :=
  let P := W.proc p
  let goto (c : PC) : World V := { W with proc := set W.proc p { P with pc := c } }
  match P.pc with
  | .idle | .done | .failed _ => W
  | .start => goto (.mkdir (!W.root))
  | .mkdir isNew => { goto (if isNew then .create .info else .check) with root := true }
  | .check =>
    match (W.cell .info).data with
    | .missing => goto (.failed .fileNotFound)
    | .torn => goto (.failed .unreadable)
    | .whole v => goto (if F.same v (P.given .info) then .create .info else .failed .mismatch)
  | .create r =>
    if (W.lock r).isNone then
      if (W.cell r).ver then goto (.load r)
      else
        { goto (.openFile r) with
          cell := set W.cell r { W.cell r with ver := true }
          lock := set W.lock r (some p) }
    else W
  | .openFile r => { goto (.fill r) with cell := set W.cell r { W.cell r with data := .torn } }
  | .fill r =>
    match F.roundtrip r (P.given r) with
    | none => { goto (.failed .unwritable) with lock := set W.lock r none }
    | some v =>
      { W with
        cell := set W.cell r { W.cell r with data := .whole v }
        lock := set W.lock r none
        proc := set W.proc p { P with pc := PC.after r, got := set P.got r (some (P.given r)) } }
  | .load r =>
    if (W.lock r).isNone then
      match (W.cell r).data with
      | .missing => goto (.failed .fileNotFound)
      | .torn => goto (.failed .unreadable)
      | .whole v =>
        { W with proc := set W.proc p { P with pc := PC.after r, got := set P.got r (some v) } }
    else W

/-- What can happen: a process calls with the given values, a process makes one file operation, a
process is killed, or somebody who has loaded a resource other than the info replaces its value
(`Synced.put`, `neps/state/protocols.py:500-503`; simplification: in one step). -/
inductive Act (V : Type)
  | call (p : Nat) (given : Res → V)
  | step (p : Nat)
  | kill (p : Nat)
  | put (r : Res) (v : V)

/-- One action. Only a process that is not in a call can call; a value is only replaced while
nobody is inside the lock and if it is there. -/
def act (F : Format V) (W : World V) : Act V → World V
  | .call p given =>
    match (W.proc p).pc with
    | .idle | .done | .failed _ =>
      { W with proc := set W.proc p ⟨given, .start, fun _ => none⟩ }
    | _ => W
  | .step p => step F W p
  | .kill p =>
    { W with
      lock := fun r => if W.lock r = some p then none else W.lock r
      proc := set W.proc p { W.proc p with pc := .idle } }
  | .put r v =>
    match r, (W.cell r).data, F.roundtrip r v with
    | .info, _, _ => W
    | r, .whole _, some v' =>
      if (W.lock r).isNone then { W with cell := set W.cell r { W.cell r with data := .whole v' } } else W
    | _, _, _ => W

/-- Any sequence of actions. -/
def run (F : Format V) (W : World V) : List (Act V) → World V
  | [] => W
  | a :: as => run F (act F W a) as

/-- The largest number of file operations of one call. -/
def callSteps : Nat := 15

/-- A call of process `p` that nobody disturbs. -/
def call (F : Format V) (W : World V) (p : Nat) (given : Res → V) : World V :=
  run F W (.call p given :: List.replicate callSteps (.step p))

/-- The part of `_launch_runtime` before the call (`neps/runtime.py:509-514`): with
`overwrite_working_directory=True` the directory is deleted. -/
def overwrite (W : World V) : World V :=
  { W with root := false, cell := fun _ => .empty }

/-- The root directory does not exist and nobody has called. -/
def init (given : Res → V) : World V :=
  ⟨false, fun _ => .empty, fun _ => none, fun _ => ⟨given, .idle, fun _ => none⟩⟩

/-! ## The optimizer info -/

/-- A Python value in the optimizer info. `tuple` is any iterable other than a text, a list or a
mapping; `obj` is any object that `serializable_format` returns as it is and `yaml.safe_dump`
refuses. -/
inductive IVal
  | none
  | bool (b : Bool)
  | int (i : Int)
  | float (x : PyFloat)
  | str (s : String)
  | list (l : List IVal)
  | tuple (l : List IVal)
  | dict (d : List (String × IVal))
  | obj (tag : Nat)
deriving Repr

namespace IVal

mutual
/-- What `deserialize` returns after `serialize` (`neps/utils/files.py:14-70`); `none` if
`yaml.safe_dump` raises. Simplifications: the text of the file is not modelled, keys are texts, and
the order of keys, which `==` ignores, is kept. -/
def stored : IVal → Option IVal
  | .none => some .none
  | .bool b => some (.bool b)
  | .int i => some (.int i)
  | .float x => some (.float x)
  | .str s => some (.str s)
  | .list l | .tuple l => (storedList l).map .list
  | .dict d => (storedDict d).map .dict
  | .obj _ => Option.none
/-- The elements of a list (`neps/utils/files.py:31-32`). -/
def storedList : List IVal → Option (List IVal)
  | [] => some []
  | v :: l =>
    match stored v, storedList l with
    | some v, some l => some (v :: l)
    | _, _ => Option.none
/-- The entries of a mapping (`neps/utils/files.py:28-29`). -/
def storedDict : List (String × IVal) → Option (List (String × IVal))
  | [] => some []
  | (k, v) :: l =>
    match stored v, storedDict l with
    | some v, some l => some ((k, v) :: l)
    | _, _ => Option.none
end

/-- The value of a number for `==`: `True == 1 == 1.0`. -/
def number : IVal → Option PyFloat
  | .bool b => some (.num (if b then 1 else 0))
  | .int i => some (.num i)
  | .float x => some x
  | _ => Option.none

/-- A number and any value. -/
def numEq (x : PyFloat) (v : IVal) : Bool :=
  match v.number with
  | some y => x.eq y
  | Option.none => false

mutual
/-- Python's `==` of a value read from a file and another value
(`neps/state/filebased.py:618`). -/
def pyEq : IVal → IVal → Bool
  | .none, .none => true
  | .bool a, b => numEq (.num (if a then 1 else 0)) b
  | .int a, b => numEq (.num a) b
  | .float a, b => numEq a b
  | .str a, .str b => a == b
  | .list a, .list b => pyEqList a b
  | .tuple a, .tuple b => pyEqList a b
  | .dict a, .dict b => a.length == b.length && pyEqDict a b
  | .obj a, .obj b => a == b
  | _, _ => false
/-- Lists. -/
def pyEqList : List IVal → List IVal → Bool
  | [], [] => true
  | v :: a, w :: b => pyEq v w && pyEqList a b
  | _, _ => false
/-- Every entry of `a` is in `b`. -/
def pyEqDict : List (String × IVal) → List (String × IVal) → Bool
  | [], _ => true
  | (k, v) :: a, b =>
    (match Dict.get b k with
     | some w => pyEq v w
     | Option.none => false) && pyEqDict a b
end

end IVal

/-- The files of NePS: the info is written as YAML (`neps/state/filebased.py:355-371`); what the
other resources return after writing is left arbitrary. -/
def yaml (other : Res → IVal → Option IVal) : Format IVal :=
  ⟨fun r v => match r with
    | .info => v.stored
    | r => other r v, IVal.pyEq⟩

end Neps.Create
