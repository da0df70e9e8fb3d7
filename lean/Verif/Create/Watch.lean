import Verif.Create.Model

/-!
# Looking at a run

Model of `load_filebased_neps_state` (`neps/state/filebased.py:490-559`), with which
`neps.status`, `neps.get_summary_dict` and the commands `neps status`, `neps errors`,
`neps info-config` and `neps results` look at a root directory, next to the processes that create,
join and work on the run (`Verif.Create.Model`).

Simplifications, for the whole file:
* the ones of `Verif.Create.Model`; in particular reading a resource, which happens inside its lock
  (`neps/state/protocols.py:431-439`), is one step that waits until the lock is free;
* `folders` stands for the five subdirectories `configs`, `.seed_state`, `.errors`,
  `.optimizer_state` and `.optimizer_info` together; they are made in one step.
-/

namespace Neps.Create

variable {V : Type}

/-- The exceptions of a look: `FileNotFoundError` (`neps/state/filebased.py:502-503`, or a data file
that is not there), `VersionedResourceDoesNotExistsError` (`neps/state/protocols.py:239-242`), or
reading a file that is not complete. -/
inductive LookErr
  | fileNotFound | doesNotExist | unreadable
deriving DecidableEq, Repr

/-- Where a look is (`neps/state/filebased.py:502-559`). -/
inductive LookPC
  /-- not looking -/
  | idle
  /-- before `directory.exists()` (`filebased.py:502`) -/
  | start
  /-- before the directories are made (`filebased.py:504-514`) -/
  | mkdir
  /-- before `Synced.load` takes the lock of `r` (`protocols.py:431`) -/
  | load (r : Res)
  /-- returned -/
  | done
  /-- raised -/
  | failed (e : LookErr)
deriving DecidableEq, Repr

/-- A watcher: where it is and what it has read. -/
structure Watcher (V : Type) where
  pc : LookPC
  got : Res → Option V

/-- The files and processes of a run, whether the subdirectories are there, and the watchers. -/
structure Scene (V : Type) where
  world : World V
  folders : Bool
  watcher : Nat → Watcher V

/-- After resource `r` was read: the next one, in the order of `neps/state/filebased.py:516-558`
(which is the order of creation), or return. -/
def LookPC.after (r : Res) : LookPC :=
  match r.next with
  | some r' => .load r'
  | none => .done

/-- One step of watcher `o`.
`neps/state/filebased.py:502-559`, `neps/state/protocols.py:210-251, 431-439`. The lock makes the
directory of its resource (`neps/state/filebased.py:465`). -/
def lookStep (S : Scene V) (o : Nat) : Scene V :=
  let P := S.watcher o
  let goto (c : LookPC) : Scene V := { S with watcher := set S.watcher o { P with pc := c } }
  match P.pc with
  | .idle | .done | .failed _ => S
  | .start => goto (if S.world.root then .mkdir else .failed .fileNotFound)
  | .mkdir => { goto (.load .info) with world := { S.world with root := true }, folders := true }
  | .load r =>
    if (S.world.lock r).isNone then
      if (S.world.cell r).ver then
        match (S.world.cell r).data with
        | .missing => { goto (.failed .fileNotFound) with world := { S.world with root := true } }
        | .torn => { goto (.failed .unreadable) with world := { S.world with root := true } }
        | .whole v =>
          { S with
            world := { S.world with root := true }
            watcher := set S.watcher o ⟨LookPC.after r, set P.got r (some v)⟩ }
      else { goto (.failed .doesNotExist) with world := { S.world with root := true } }
    else S

/-- What can happen: something in the run, somebody starts to look, a watcher makes one step, a
watcher is killed, or the root directory is deleted because of `overwrite_working_directory=True`
(`neps/runtime.py:509-514`; simplification: in one step). -/
inductive SceneAct (V : Type)
  | work (a : Act V)
  | look (o : Nat)
  | step (o : Nat)
  | kill (o : Nat)
  | overwrite

/-- One action. The directories are also made by a process that creates or joins
(`neps/state/filebased.py:594-605`). -/
def sceneAct (F : Format V) (S : Scene V) : SceneAct V → Scene V
  | .work a =>
    { S with
      world := act F S.world a
      folders := S.folders || (match a with
        | .step p => (match (S.world.proc p).pc with
          | .mkdir _ => true
          | _ => false)
        | _ => false) }
  | .look o =>
    match (S.watcher o).pc with
    | .idle | .done | .failed _ => { S with watcher := set S.watcher o ⟨.start, fun _ => none⟩ }
    | _ => S
  | .step o => lookStep S o
  | .kill o => { S with watcher := set S.watcher o ⟨.idle, fun _ => none⟩ }
  | .overwrite => { S with world := overwrite S.world, folders := false }

/-- Any sequence of actions. -/
def sceneRun (F : Format V) (S : Scene V) : List (SceneAct V) → Scene V
  | [] => S
  | a :: s => sceneRun F (sceneAct F S a) s

/-- Nobody has looked at the run yet. -/
def Scene.of (W : World V) (folders : Bool) : Scene V :=
  ⟨W, folders, fun _ => ⟨.idle, fun _ => none⟩⟩

/-- A look of watcher `o` that nobody disturbs: the existence check, the directories and the four
resources. -/
def lookAt (F : Format V) (S : Scene V) (o : Nat) : Scene V :=
  sceneRun F S (.look o :: List.replicate 6 (.step o))

end Neps.Create
