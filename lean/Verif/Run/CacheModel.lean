import Verif.Run.Model

/-!
# Workers that keep the trials they have opened

`Verif.Run.Model` describes workers that read a trial from the disk whenever they need it. The
program does something else: a worker keeps every trial it has opened, together with the version it
has read (`TrialRepoInDirectory._cache`, `neps/state/filebased.py:91, 121-141`), reads a file again
only if the version has changed (`neps/state/protocols.py:258-269`), opens all trials before it
syncs the first one (`neps/state/filebased.py:201`), and changes the kept object in place before it
is written (`neps/runtime.py:416-420, 449`, `neps/state/neps_state.py:166`).

This file models the workers with their caches. One step opens or syncs one trial, and all of this
interleaves with the steps of other workers. What is kept from `Verif.Run.Model`: listings, stop
checks, evaluation, the budget and the error log. Reading the trials in `sample_trial` is one step
(`neps/state/neps_state.py:92-95`): what the optimizer makes of them is arbitrary.

New: taking the lock of a trial can time out when a worker claims the trial
(`neps/state/filebased.py:467-486`, `neps/runtime.py:430-435`).
-/

namespace Neps.Run

open Neps.Store (Disk Handle)

/-- The trials a worker has opened: content and version of each
(`TrialRepoInDirectory._cache`, `neps/state/filebased.py:91`). -/
abbrev Cache := String → Option (Handle Trial)

/-- Keep a trial. -/
def Cache.set (k : Cache) (id : String) (h : Handle Trial) : Cache :=
  fun id' => if id' = id then some h else k id'

/-- `get_by_id`, `neps/state/filebased.py:121-141`: the kept trial, or read it and keep it. -/
def Cache.open (k : Cache) (id : String) (d : Disk Trial) : Except Store.Err Cache :=
  match k id with
  | some _ => .ok k
  | none =>
    match Store.load d with
    | .ok h => .ok (k.set id h)
    | .error e => .error e

/-- `synced()` of a kept trial, `neps/state/protocols.py:253-269, 491-494`: its content, after
reading it again if the version has changed. -/
def Cache.sync (k : Cache) (id : String) (d : Disk Trial) : Except Store.Err (Cache × Trial) :=
  match k id with
  | none => .error .noHandle
  | some h =>
    match Store.sync h d with
    | .ok h' => .ok (k.set id h', h'.cur)
    | .error e => .error e

/-- Where a worker is in `run`; compare `PC`. `sweepOpen todo all` and `pendOpen todo all` are inside
`all()` (`neps/state/filebased.py:201`): of the listed trials `all`, those in `todo` are not opened
yet. From `claim` on the trial is the kept object itself. -/
inductive CPC
  | top                                                          -- `runtime.py:382-277`
  | readErrors                                                   -- `runtime.py:281-303`
  | sweepList                                                    -- `runtime.py:318`, the listing
  | sweepOpen (todo all : List String)                           -- `filebased.py:201`
  | sweepSync (todo : List String) (seen : List Trial)           -- `neps_state.py:223`
  | pendList                                                     -- `filebased.py:207`, the listing
  | pendOpen (todo all : List String)                            -- `filebased.py:201`
  | pendSync (todo : List String) (found : List (String × PyFloat)) -- `filebased.py:205-210`
  | fetch (id : String)                                          -- `neps_state.py:211`
  | sample                                                       -- `neps_state.py:68-144`
  | claim (id : String)                                          -- `runtime.py:414-444`
  | eval (id : String)                                           -- `runtime.py:447-475`
  | report (id : String) (r : Report)                            -- `neps_state.py:162-167`
  | budget (t : Trial) (r : Report)                              -- `neps_state.py:169-177`
  | logErr (t : Trial) (r : Report) (e : Exc)                    -- `neps_state.py:179-189`
  | stopped (h : Halt)
  | raised (e : RunErr)
deriving DecidableEq, Repr

/-- A worker with its cache; compare `Worker`. -/
structure CWorker where
  alive : Bool := true
  pc : CPC := .top
  kept : Cache := fun _ => none
  err : Option Exc := none
  count : Nat := 0
  cost : PyFloat := 0
  evalTime : PyFloat := 0
  nFailed : Option Nat := none

/-- The shared directory and the workers with their caches; compare `World`. -/
structure CWorld where
  ids : List String := []
  disk : String → Disk Trial := fun _ => Disk.empty
  budget : PyFloat := 0
  errs : List ErrEntry := []
  worker : Nat → CWorker := fun _ => {}
  log : List Event := []

/-- Update one worker. -/
def CWorld.setW (C : CWorld) (w : Nat) (x : CWorker) : CWorld :=
  { C with worker := fun w' => if w' = w then x else C.worker w' }

/-- Update the files of one trial. -/
def CWorld.setDisk (C : CWorld) (id : String) (d : Disk Trial) : CWorld :=
  { C with disk := fun id' => if id' = id then d else C.disk id' }

/-- Move worker `w` to `pc`. -/
def CWorld.goto (C : CWorld) (w : Nat) (pc : CPC) : CWorld :=
  C.setW w { C.worker w with pc := pc }

/-- Move worker `w` to `pc`, with a new cache. -/
def CWorld.gotoK (C : CWorld) (w : Nat) (pc : CPC) (k : Cache) : CWorld :=
  C.setW w { C.worker w with pc := pc, kept := k }

/-- Append to the log. -/
def CWorld.emit (C : CWorld) (e : Event) : CWorld := { C with log := e :: C.log }

/-- Kill worker `w`. -/
def CWorld.killW (C : CWorld) (w : Nat) : CWorld :=
  C.setW w { C.worker w with alive := false }

/-- A directory listing: any order; compare `listing`. -/
def clisting (C : CWorld) (c : Choice) : List String :=
  if c.order.isPerm C.ids then c.order else C.ids

/-- Open trials, `neps/state/filebased.py:201`. -/
def openAll (disk : String → Disk Trial) : List String → Cache → Except Store.Err Cache
  | [], k => .ok k
  | id :: ids, k =>
    match k.open id (disk id) with
    | .error e => .error e
    | .ok k' => openAll disk ids k'

/-- Sync trials, `neps/state/neps_state.py:93-95`. -/
def syncAll (disk : String → Disk Trial) : List String → Cache → Except Store.Err Cache
  | [], k => .ok k
  | id :: ids, k =>
    match k.sync id (disk id) with
    | .error e => .error e
    | .ok (k', _) => syncAll disk ids k'

/-- The part of `sample_trial` before the new trial is stored, `neps/state/neps_state.py:92-126`: all
trials are opened and synced, and the predecessor is looked up among them. The result are the cache
and the location of the predecessor; compare `prepareSample`. -/
def cprepare (C : CWorld) (k : Cache) (s : Sampled) : Option (Cache × Option String) :=
  match openAll C.disk C.ids k with
  | .error _ => none
  | .ok k₁ =>
    match syncAll C.disk C.ids k₁ with
    | .error _ => none
    | .ok k₂ =>
      match s.previousId with
      | none => some (k₂, none)
      | some p =>
        if p ∈ C.ids then
          match k₂ p with
          | some h => some (k₂, some h.cur.metadata.location)
          | none => none
        else none

/-- The end of a claim that was refused (`mismatch`) or for which the lock was not obtained:
`neps/runtime.py:422, 430, 438-444`. -/
def CWorker.claimFailed (x : CWorker) : CWorker :=
  match x.nFailed with
  | none => { x with pc := .raised .unboundCounter }
  | some n =>
    if n + 1 ≥ 10 then { x with pc := .raised .claimFailedTooOften, nFailed := some (n + 1) }
    else { x with pc := .top, nFailed := some (n + 1) }

/-- One step of worker `w` (which must be alive); compare `stepW`, which cites the code. -/
def cstepW (fs : String → Option PyFloat) (st : Settings) (C : CWorld) (w : Nat) (c : Choice) :
    CWorld :=
  let x := C.worker w
  match x.pc with
  | .stopped _ | .raised _ => C
  | .top =>
    match localCheck st x.err x.count x.cost c.wall x.evalTime with
    | some h => if h.raises then C.goto w (.raised .workerRaise) else C.goto w (.stopped h)
    | none =>
      if st.readsErrors then C.goto w .readErrors
      else if st.hasGlobalLimit then C.goto w .sweepList
      else C.goto w .pendList
  | .readErrors =>
    match sharedErrCheck st C.errs with
    | some h => if h.raises then C.goto w (.raised .workerRaise) else C.goto w (.stopped h)
    | none => if st.hasGlobalLimit then C.goto w .sweepList else C.goto w .pendList
  | .sweepList => C.goto w (.sweepOpen (clisting C c) (clisting C c))
  | .sweepOpen [] all => C.goto w (.sweepSync all [])
  | .sweepOpen (id :: todo) all =>
    match x.kept.open id (C.disk id) with
    | .error _ => C.goto w (.raised .sweepFailed)
    | .ok k => C.gotoK w (.sweepOpen todo all) k
  | .sweepSync [] seen =>
    match globalCheck st seen with
    | some h => C.goto w (.stopped h)
    | none => C.goto w .pendList
  | .sweepSync (id :: todo) seen =>
    match x.kept.sync id (C.disk id) with
    | .error _ => C.goto w (.raised .sweepFailed)
    | .ok (k, t) => C.gotoK w (.sweepSync todo (seen ++ [t])) k
  | .pendList => C.goto w (.pendOpen (clisting C c) (clisting C c))
  | .pendOpen [] all => C.goto w (.pendSync all [])
  | .pendOpen (id :: todo) all =>
    match x.kept.open id (C.disk id) with
    | .error _ => C.goto w (.raised .failedToGetNext)
    | .ok k => C.gotoK w (.pendOpen todo all) k
  | .pendSync (id :: todo) found =>
    match x.kept.sync id (C.disk id) with
    | .error _ => C.goto w (.raised .failedToGetNext)
    | .ok (k, t) =>
      if t.state = .pending then
        C.gotoK w (.pendSync todo (found ++ [(id, t.metadata.timeSampled)])) k
      else C.gotoK w (.pendSync todo found) k
  | .pendSync [] found =>
    match sortByTime found with
    | [] => C.goto w .sample
    | (id, _) :: _ => C.goto w (.fetch id)
  | .fetch id =>
    match x.kept.sync id (C.disk id) with
    | .error _ => C.goto w (.raised .failedToGetNext)
    | .ok (k, _) => C.gotoK w (.claim id) k
  | .sample =>
    match c.ask with
    | none => C.goto w (.raised .failedToGetNext)
    | some s =>
      match cprepare C x.kept s with
      | none => C.goto w (.raised .failedToGetNext)
      | some (k, loc) =>
        if s.id ∈ C.ids then C.goto w (.raised .failedToGetNext)
        else
          match Store.new (newTrial w s loc c.now) (C.disk s.id) with
          | (.error _, _) => C.goto w (.raised .failedToGetNext)
          | (.ok h, d) =>
            ({ (C.setDisk s.id d) with ids := C.ids ++ [s.id] }.gotoK w (.claim s.id)
              (k.set s.id h)).emit (.created w s.id)
  | .claim id =>
    match x.kept id with
    | none => C.goto w (.raised .failedToGetNext)
    | some h =>
      let t := h.cur.setEvaluating c.now (workerName w)
      match Store.put t ⟨t, h.ver⟩ (C.disk id) with
      | (.ok h', d) =>
        ((C.setDisk id d).setW w
          { x with pc := .eval id, kept := x.kept.set id h', nFailed := some 0 }).emit
            (.claimed w id h.cur)
      | (.error _, _) =>
        (C.setW w ({ x with kept := x.kept.set id ⟨t, h.ver⟩ }.claimFailed)).emit (.claimLost w id)
  | .eval id =>
    match x.kept id with
    | none => C.goto w (.raised .failedToGetNext)
    | some h =>
      match evalTrial fs h.cur st.dv c.outcome c.now c.duration with
      | .error e => (C.goto w (.raised (.evaluation e))).emit (.evaluated w id c.outcome)
      | .ok (t, r) =>
        (C.setW w { x with
          pc := .report id r
          kept := x.kept.set id ⟨t, h.ver⟩
          evalTime := x.evalTime + c.duration
          count := x.count + 1
          cost := x.cost + r.cost.getD 0
          err := match r.err with | some e => some e | none => x.err }).emit
            (.evaluated w id c.outcome)
  | .report id r =>
    match x.kept id with
    | none => C.goto w (.raised .failedToGetNext)
    | some h =>
      match Store.put { h.cur with report := some r } h (C.disk id) with
      | (.error _, _) => C.goto w (.raised .reportRejected)
      | (.ok h', d) =>
        ((C.setDisk id d).gotoK w (.budget h.cur r) (x.kept.set id h')).emit (.reported w id r)
  | .budget t r =>
    let C := { C with budget := charge C.budget r.cost }
    match r.err with
    | none => (C.goto w .top).emit (.charged w r)
    | some e => (C.goto w (.logErr t r e)).emit (.charged w r)
  | .logErr t r e =>
    ({ C with errs := C.errs ++ [errEntry w t r e] }.goto w .top).emit
      (.logged w (errEntry w t r e))

/-- What can happen; compare `Act`. `lockTimeout`: the worker is about to claim a trial and does not
get the lock of the trial in time (`neps/state/filebased.py:467-486`). -/
inductive CAct
  | step (w : Nat) (c : Choice)
  | kill (w : Nat)
  | killCreating (w : Nat) (c : Choice) (torn : Bool)
  | lockTimeout (w : Nat) (c : Choice)
deriving Repr

/-- Perform an action; compare `act`. When the lock is not obtained, the kept trial has already been
changed (`neps/runtime.py:416-420`) and the exception is caught by `neps/runtime.py:430-435`. -/
def cact (fs : String → Option PyFloat) (st : Nat → Settings) (C : CWorld) : CAct → CWorld
  | .step w c => if (C.worker w).alive then cstepW fs (st w) C w c else C
  | .kill w => C.killW w
  | .killCreating w c torn =>
    if (C.worker w).alive then
      match (C.worker w).pc, c.ask with
      | .sample, some s =>
        match cprepare C (C.worker w).kept s with
        | none => C.killW w
        | some _ =>
          if s.id ∈ C.ids then C.killW w
          else
            let d := if torn then (Store.bump (C.disk s.id)).2 else C.disk s.id
            ({ (C.setDisk s.id d) with ids := C.ids ++ [s.id] }).killW w
      | _, _ => C.killW w
    else C
  | .lockTimeout w c =>
    if (C.worker w).alive then
      match (C.worker w).pc with
      | .claim id =>
        match (C.worker w).kept id with
        | none => C
        | some h =>
          C.setW w ({ C.worker w with
            kept := (C.worker w).kept.set id
              ⟨h.cur.setEvaluating c.now (workerName w), h.ver⟩ }.claimFailed)
      | _ => C
    else C

/-- Perform a list of actions. -/
def crun (fs : String → Option PyFloat) (st : Nat → Settings) (C : CWorld) (as : List CAct) :
    CWorld :=
  as.foldl (cact fs st) C

end Neps.Run
