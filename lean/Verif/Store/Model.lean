/-!
# Versioned, locked resources

Model of `neps/state/protocols.py` (`VersionedResource`, `Synced`) on top of
`neps/state/filebased.py` (`FileVersioner`).

Simplifications, used throughout this file:
* a version tag (`uuid4().hex`, `filebased.py:62-64`) is a natural number drawn from a counter,
  so tags never repeat;
* the lock (`filebased.py:430-487`) is mutual exclusion, so one method of `Synced` is one step;
* the data files of a resource are one optional value (`none` = not written yet).
-/

namespace Neps.Store

/-- What is on disk for one resource: the version file (`filebased.py:71`), the data file(s)
and the supply of unused version tags (see the simplifications above). -/
structure Disk (D : Type) where
  ver  : Option Nat
  data : Option D
  next : Nat
deriving Repr, DecidableEq

/-- The in-memory part of a `VersionedResource`: `_current` and `_version`
(`neps/state/protocols.py:159-161`). -/
structure Handle (D : Type) where
  cur : D
  ver : Nat
deriving Repr, DecidableEq

/-- Exceptions of `neps/state/protocols.py:154-157`, plus the `FileNotFoundError` of reading a
missing data file and the Python impossibility of calling a method without an object. -/
inductive Err
  | alreadyExists | doesNotExist | removed | mismatch | fileNotFound | noHandle
deriving Repr, DecidableEq

variable {D : Type}

/-- Nothing on disk. -/
def Disk.empty : Disk D := ⟨none, none, 0⟩

/-- `FileVersioner.bump`, `neps/state/filebased.py:79-83`. -/
def bump (d : Disk D) : Nat × Disk D := (d.next, { d with ver := some d.next, next := d.next + 1 })

/-- `ReaderWriter.write`, e.g. `neps/state/filebased.py:242-257`. -/
def write (x : D) (d : Disk D) : Disk D := { d with data := some x }

/-- `ReaderWriter.read`, e.g. `neps/state/filebased.py:225-238`. -/
def read (d : Disk D) : Except Err D :=
  match d.data with
  | none => .error .fileNotFound
  | some x => .ok x

/-- `VersionedResource.new`, `neps/state/protocols.py:165-209`: refuse if a version exists,
bump, write. -/
def new (x : D) (d : Disk D) : Except Err (Handle D) × Disk D :=
  match d.ver with
  | some _ => (.error .alreadyExists, d)
  | none =>
    let (v, d) := bump d
    (.ok ⟨x, v⟩, write x d)

/-- `VersionedResource.load`, `neps/state/protocols.py:211-251`. -/
def load (d : Disk D) : Except Err (Handle D) :=
  match d.ver with
  | none => .error .doesNotExist
  | some v =>
    match read d with
    | .error e => .error e
    | .ok x => .ok ⟨x, v⟩

/-- `Synced.new_or_load`, `neps/state/protocols.py:441-489`. The flag tells whether the
resource was created. The code takes the lock twice (once in `Synced.new`, once in `Synced.load`);
the fine-grained behaviour is the two separate calls `Op.create` and `Op.load` below, and the
theorems quantify over schedules that interleave those too. -/
def newOrLoad (x : D) (d : Disk D) : Except Err (Bool × Handle D) × Disk D :=
  match new x d with
  | (.ok h, d') => (.ok (true, h), d')
  | (.error .alreadyExists, d') => ((load d').map (fun h => (false, h)), d')
  | (.error e, d') => (.error e, d')

/-- `VersionedResource.sync`, `neps/state/protocols.py:258-269`. -/
def sync (h : Handle D) (d : Disk D) : Except Err (Handle D) :=
  match d.ver with
  | none => .error .removed
  | some v =>
    if h.ver = v then .ok h
    else match read d with
      | .error e => .error e
      | .ok x => .ok ⟨x, v⟩

/-- `VersionedResource.put`, `neps/state/protocols.py:271-292`: refuse if the versions differ,
write, bump. -/
def put (x : D) (h : Handle D) (d : Disk D) : Except Err (Handle D) × Disk D :=
  if some h.ver = d.ver then
    let (v, d) := bump (write x d)
    (.ok ⟨x, v⟩, d)
  else (.error .mismatch, d)

/-- `VersionedResource.is_stale`, `neps/state/protocols.py:298-300`. -/
def isStale (h : Handle D) (d : Disk D) : Bool := some h.ver != d.ver

/-! ## Several workers -/

/-- One call on the resource by a worker.
`acquire f` is `with r.acquire() as (cur, put): ...` (`protocols.py:506-523`) whose body
computes `f cur` and puts it back, or does not call `put` if `f cur = none`. -/
inductive Op (D : Type)
  | create (x : D)          -- `Synced.new`        `protocols.py:356-397`
  | load                    -- `Synced.load`       `protocols.py:399-439`
  | newOrLoad (x : D)       -- `Synced.new_or_load` `protocols.py:441-489`
  | synced                  -- `Synced.synced`     `protocols.py:491-494`
  | put (x : D)             -- `Synced.put`        `protocols.py:500-503`
  | acquire (f : D → Option D)

/-- What a call returns: it wrote `x`, it returned the stored value `x`, or it raised. -/
inductive Out (D : Type)
  | wrote (x : D)
  | got (x : D)
  | raised (e : Err)
deriving Repr, DecidableEq

/-- A disk shared by workers, each holding at most one handle (its `Synced` object). -/
structure World (D : Type) where
  disk : Disk D
  handle : Nat → Option (Handle D)

/-- No file on disk, no worker has opened the resource. -/
def World.init : World D := ⟨Disk.empty, fun _ => none⟩

/-- Replace the handle of worker `w`. -/
def setHandle (hs : Nat → Option (Handle D)) (w : Nat) (h : Handle D) : Nat → Option (Handle D) :=
  fun w' => if w' = w then some h else hs w'

/-- One complete call. -/
def step (W : World D) (w : Nat) (op : Op D) : World D × Out D :=
  match op with
  | .create x =>
    match new x W.disk with
    | (.ok h, d) => (⟨d, setHandle W.handle w h⟩, .wrote x)
    | (.error e, d) => (⟨d, W.handle⟩, .raised e)
  | .load =>
    match load W.disk with
    | .ok h => (⟨W.disk, setHandle W.handle w h⟩, .got h.cur)
    | .error e => (W, .raised e)
  | .newOrLoad x =>
    match newOrLoad x W.disk with
    | (.ok (true, h), d) => (⟨d, setHandle W.handle w h⟩, .wrote x)
    | (.ok (false, h), d) => (⟨d, setHandle W.handle w h⟩, .got h.cur)
    | (.error e, d) => (⟨d, W.handle⟩, .raised e)
  | .synced =>
    match W.handle w with
    | none => (W, .raised .noHandle)
    | some h =>
      match sync h W.disk with
      | .ok h' => (⟨W.disk, setHandle W.handle w h'⟩, .got h'.cur)
      | .error e => (W, .raised e)
  | .put x =>
    match W.handle w with
    | none => (W, .raised .noHandle)
    | some h =>
      match put x h W.disk with
      | (.ok h', d) => (⟨d, setHandle W.handle w h'⟩, .wrote x)
      | (.error e, d) => (⟨d, W.handle⟩, .raised e)
  | .acquire f =>
    match W.handle w with
    | none => (W, .raised .noHandle)
    | some h =>
      match sync h W.disk with
      | .error e => (W, .raised e)
      | .ok h' =>
        match f h'.cur with
        | none => (⟨W.disk, setHandle W.handle w h'⟩, .got h'.cur)
        | some x =>
          match put x h' W.disk with
          | (.ok h'', d) => (⟨d, setHandle W.handle w h''⟩, .wrote x)
          | (.error e, d) => (⟨d, setHandle W.handle w h'⟩, .raised e)

/-- A finished call: who, and with what outcome. -/
structure Event (D : Type) where
  who : Nat
  out : Out D

/-- Run a schedule; the log is newest first. -/
def run (W : World D) : List (Nat × Op D) → World D × List (Event D)
  | [] => (W, [])
  | (w, op) :: rest =>
    let (W₁, o) := step W w op
    let (W₂, log) := run W₁ rest
    (W₂, log ++ [⟨w, o⟩])

/-! ## Calls cut short by a kill -/

/-- `put` killed after `k` of its two file operations (`protocols.py:290-292`): `k = 0` nothing
written, `k = 1` data written but version not bumped, `k ≥ 2` both. A refused put writes
nothing. Only the disk survives the kill. -/
def putKilled (k : Nat) (x : D) (h : Handle D) (d : Disk D) : Disk D :=
  if some h.ver = d.ver then
    match k with
    | 0 => d
    | 1 => write x d
    | _ => (bump (write x d)).2
  else d

/-- `new` killed after `k` of its two file operations (`protocols.py:200-201`): the version is
bumped first, the data written second. -/
def newKilled (k : Nat) (x : D) (d : Disk D) : Disk D :=
  match d.ver with
  | some _ => d
  | none =>
    match k with
    | 0 => d
    | 1 => (bump d).2
    | _ => write x (bump d).2

end Neps.Store
