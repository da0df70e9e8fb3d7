import Mathlib.Data.List.Basic

/-!
# Overwriting a run while its workers are still there

Model of `neps.run(..., overwrite_working_directory=True)` (`neps/runtime.py:509-514`) next to workers
that were started before: the directory `configs` of the run, the versions of the trials and the memory
of the workers.

Simplifications, for the whole file:
* deleting the directory and creating the run again (`neps/runtime.py:514-516`) are one step; the steps
  in between are `Verif.Create.Model`;
* sampling a trial, storing it and setting it to evaluating (`neps/runtime.py:393-420`) are one step, so
  no trial is ever pending; what workers do to each other in between is `Verif.Run.Model`;
* the stopping conditions are left out: a worker stops because it is killed or raises;
* the optimizer is left out: the id of a new trial is part of the event, any id may be chosen, and the
  configuration is represented by a number that no other sampled configuration has;
* a version is a number that was not used before, in place of the UUID of
  `neps/state/filebased.py:62-64`.
-/

namespace Neps.Overwrite

/-- A stored trial: the content of `.version`, which configuration it is, the search space of the worker
that sampled it, and, if there is a report, the configuration whose evaluation is reported.
`neps/state/trial.py:134-137`, `neps/state/filebased.py:68-83`. -/
structure Entry where
  ver : Nat
  cfg : Nat
  space : Nat
  result : Option Nat
deriving DecidableEq, Repr

/-- The directory `configs/config_<id>`: it has a trial in it, or nothing but the lock file that
`FileLocker.lock` creates together with the directory (`neps/state/filebased.py:465-466`). -/
inductive Slot
  | bare
  | trial (e : Entry)
deriving DecidableEq, Repr

/-- A process that may call `neps.run`. -/
inductive Status
  /-- not started, or stopped -/
  | off
  /-- in the loop of `DefaultWorker.run` (`neps/runtime.py:382`), without a trial -/
  | idle
  /-- evaluates trial `id`, which is configuration `cfg` and has version `ver` in the cache of the worker
  (`neps/state/filebased.py:191`) -/
  | evaluating (id ver cfg : Nat)
  /-- left `neps.run` with an exception -/
  | raised
deriving DecidableEq, Repr

/-- The subdirectories of `configs`, the next unused number, and the processes with the search space each
of them was given. -/
structure World where
  slots : List (Nat × Slot)
  fresh : Nat
  status : Nat → Status
  space : Nat → Nat

/-- No run, no process. -/
def World.empty : World := ⟨[], 0, fun _ => .off, fun _ => 0⟩

/-- What can happen. -/
inductive Event
  /-- process `w` calls `neps.run` with a search space, with or without
  `overwrite_working_directory=True` -/
  | launch (w : Nat) (over : Bool) (space : Nat)
  /-- worker `w` tries to get a trial; the optimizer, if it is asked, gives it the id `id` -/
  | attempt (w id : Nat)
  /-- the evaluation of worker `w` ends and its report is stored -/
  | finish (w : Nat)
  /-- process `w` is killed -/
  | kill (w : Nat)
deriving DecidableEq, Repr

/-- Is the slot a directory without a trial? -/
def Slot.isBare : Slot → Bool
  | .bare => true
  | .trial _ => false

/-- Replace the value of `f` at `w`. -/
def upd {α : Type} (f : Nat → α) (w : Nat) (a : α) : Nat → α := fun x => if x = w then a else f x

/-- Write into the directory of `id`, which exists.
`neps/state/filebased.py:238-257`. -/
def setSlot (slots : List (Nat × Slot)) (id : Nat) (s : Slot) : List (Nat × Slot) :=
  slots.map fun p => if p.1 = id then (id, s) else p

/-- `_launch_runtime` up to `worker.run()` (`neps/runtime.py:509-563`). -/
def launch (W : World) (w : Nat) (over : Bool) (space : Nat) : World :=
  match W.status w with
  | .off =>
    { W with
      slots := if over then [] else W.slots
      status := upd W.status w .idle
      space := upd W.space w space }
  | _ => W

/-- One turn of the loop up to the evaluation (`neps/runtime.py:382-448`). Getting a pending trial
synchronises every trial in `configs` (`neps/state/filebased.py:193-209`). A directory without a version
raises: when the trial is in the cache, `VersionedResourceRemovedError` (`neps/state/protocols.py:258-265`),
otherwise `VersionedResourceDoesNotExistsError` (`neps/state/protocols.py:239-242`). Storing the trial
raises when the directory exists (`neps/state/filebased.py:170-174`). The worker gives up after the first
failure (`neps/runtime.py:46, 395-409`). -/
def attempt (W : World) (w id : Nat) : World :=
  match W.status w with
  | .idle =>
    if (W.slots.any fun p => p.2.isBare) || (W.slots.any fun p => p.1 == id) then
      { W with status := upd W.status w .raised }
    else
      { W with
        slots := W.slots ++ [(id, .trial ⟨W.fresh, W.fresh, W.space w, none⟩)]
        fresh := W.fresh + 1
        status := upd W.status w (.evaluating id W.fresh W.fresh) }
  | _ => W

/-- `report_trial_evaluation` (`neps/state/neps_state.py:154-166`, `neps/state/protocols.py:272-294,
501-504`): the lock makes the directory when it is not there (`neps/state/filebased.py:465`), and the
version in the cache is compared with the one on disk before anything is written. -/
def finish (W : World) (w : Nat) : World :=
  match W.status w with
  | .evaluating id v c =>
    match W.slots.lookup id with
    | none =>
      { W with
        slots := W.slots ++ [(id, .bare)]
        status := upd W.status w .raised }
    | some .bare => { W with status := upd W.status w .raised }
    | some (.trial e) =>
      if e.ver = v then
        { W with
          slots := setSlot W.slots id (.trial { e with ver := W.fresh, result := some c })
          fresh := W.fresh + 1
          status := upd W.status w .idle }
      else { W with status := upd W.status w .raised }
  | _ => W

/-- One event. -/
def step (W : World) : Event → World
  | .launch w over space => launch W w over space
  | .attempt w id => attempt W w id
  | .finish w => finish W w
  | .kill w => { W with status := upd W.status w .off }

/-- Any sequence of events. -/
def run (W : World) : List Event → World
  | [] => W
  | a :: s => run (step W a) s

end Neps.Overwrite
