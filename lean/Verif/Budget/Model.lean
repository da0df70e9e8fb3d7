import Verif.Create.Model

/-!
# The optimization state: what the optimizer is told about the budget

Every call of `neps.run` hands over a budget (the limits `max_cost_total` and
`max_evaluations_total`); it is stored in `.optimizer_state/state.yaml` together with anything the
optimizer wants to keep, and is shown to the optimizer at every request for a configuration.

A process keeps its copy of the state and reads the file only if the version file has changed. The
file is only touched while its lock is held, so that one operation at a time happens; the order of
the operations of all processes is the schedule.

Simplifications: kills inside a write are the subject of `C04`, and locks do not time out. Numbers
in the budget are `float`s (a limit given as `10` is written as `10`, not `10.0`, which no reader
distinguishes).
-/

namespace Neps.Budget

open Neps.Create (IVal)

/-- `BudgetInfo`, `neps/state/optimizer.py:11-22`; `clone` returns an equal value. -/
structure BudgetInfo where
  maxCost : Option PyFloat := none
  usedCost : PyFloat := 0
  maxEvals : Option Int := none
  usedEvals : Int := 0
deriving DecidableEq, Repr

/-- `OptimizationState`, `neps/state/optimizer.py:25-45`. -/
structure OptState where
  budget : Option BudgetInfo
  shared : IVal
deriving Repr

/-- A limit, or `None`. -/
def optFloat : Option PyFloat → IVal
  | some x => .float x
  | none => .none

/-- A limit, or `None`. -/
def optInt : Option Int → IVal
  | some i => .int i
  | none => .none

/-- `asdict` of a budget (`neps/state/filebased.py:404`, fields of
`neps/state/optimizer.py:15-18`). -/
def BudgetInfo.asDict (b : BudgetInfo) : IVal :=
  .dict [("max_cost_budget", optFloat b.maxCost), ("used_cost_budget", .float b.usedCost),
    ("max_evaluations", optInt b.maxEvals), ("used_evaluations", .int b.usedEvals)]

/-- `asdict(info)`, `neps/state/filebased.py:404`. -/
def OptState.asDict (s : OptState) : IVal :=
  .dict [("budget", match s.budget with | some b => b.asDict | none => .none),
    ("shared_state", s.shared)]

/-- `state.yaml`. `serialize` opens the file for writing before `yaml.safe_dump` can refuse
(`neps/utils/files.py:51-60`), so that the file is empty afterwards. -/
inductive File
  | missing
  | empty
  | doc (v : IVal)
deriving Repr

/-- `ReaderWriterOptimizationState.write`, `neps/state/filebased.py:401-404`: the file, and whether
a `TypeError` is raised. -/
def write (s : OptState) : File × Bool :=
  match s.asDict.stored with
  | some v => (.doc v, false)
  | none => (.empty, true)

/-- `d.get(k)` with `None` for a missing key. -/
def getKey (d : List (String × IVal)) (k : String) : IVal := (Dict.get d k).getD .none

/-- Python's truth of a value. -/
def truthy : IVal → Bool
  | .none => false
  | .bool b => b
  | .int i => i != 0
  | .float x => !(x.eq 0)
  | .str s => s != ""
  | .list l => !l.isEmpty
  | .tuple l => !l.isEmpty
  | .dict d => !d.isEmpty
  | .obj _ => true

/-- One keyword argument of `BudgetInfo`, `neps/state/optimizer.py:15-18`. Simplification: values of
another type (which this program never writes) are refused here, and would be accepted by Python. -/
def setField (k : String) (v : IVal) (b : BudgetInfo) : Option BudgetInfo :=
  if k = "max_cost_budget" then
    match v with
    | .none => some { b with maxCost := none }
    | .float x => some { b with maxCost := some x }
    | _ => none
  else if k = "used_cost_budget" then
    match v with
    | .float x => some { b with usedCost := x }
    | _ => none
  else if k = "max_evaluations" then
    match v with
    | .none => some { b with maxEvals := none }
    | .int i => some { b with maxEvals := some i }
    | _ => none
  else if k = "used_evaluations" then
    match v with
    | .int i => some { b with usedEvals := i }
    | _ => none
  else none

/-- `BudgetInfo(**budget_info)`, `neps/state/filebased.py:393`: every key must be a field, and a
missing one has its default. -/
def readBudget : List (String × IVal) → Option BudgetInfo
  | [] => some {}
  | (k, v) :: d => (readBudget d).bind (setField k v)

/-- `ReaderWriterOptimizationState.read`, `neps/state/filebased.py:387-397`; `none` if it raises:
the file is missing, or `deserialize` finds no dictionary in it (`neps/utils/files.py:64-70`). -/
def read : File → Option OptState
  | .doc (.dict d) =>
    let shared := if truthy (getKey d "shared_state") then getKey d "shared_state" else .dict []
    match getKey d "budget" with
    | .none => some ⟨none, shared⟩
    | .dict b => (readBudget b).map fun b => ⟨some b, shared⟩
    | _ => none
  | _ => none

/-- What `optimizer.ask` does: it raises, returns a configuration, or returns a configuration and
the state it wants to keep. `unusable` is a configuration whose `previous_config_id` is unknown or
whose identifier exists already (`neps/state/neps_state.py:116-122,137`); nothing is then
stored. -/
inductive Reply
  | raises
  | unusable
  | config
  | configAnd (keep : IVal)
deriving Repr

/-- What users and workers do. -/
inductive Op
  /-- `neps.run(max_cost_total=..., max_evaluations_total=...)`. -/
  | launch (maxCost : Option PyFloat) (maxEvals : Option Int)
  /-- A worker asks for a new trial. The optimizer answers with what it is told. -/
  | ask (reply : Option BudgetInfo → Reply)
  /-- A worker reports an evaluation. -/
  | report (cost : Option PyFloat)

/-- What can be seen. -/
inductive Event
  /-- The optimizer was called with this `budget_info`. -/
  | told (b : Option BudgetInfo)
  /-- A trial was stored. -/
  | created
  /-- A report was stored. -/
  | reported (cost : Option PyFloat)
  /-- The cost of a stored report reached the budget. -/
  | charged (cost : Option PyFloat)
  /-- The operation ended with an exception. -/
  | raised
deriving DecidableEq, Repr

/-- A process's `VersionedResource`: `_version` and `_current`, `neps/state/protocols.py:159-163`. -/
structure Handle where
  ver : Nat
  cur : OptState
deriving Repr

/-- The directory `.optimizer_state` and the processes. `ver` is the content of the version file,
`next` a version that was never used (`neps/state/filebased.py:62-64, 79-83`). -/
structure World where
  file : File := .missing
  ver : Option Nat := none
  next : Nat := 0
  handle : Nat → Option Handle := fun _ => none

/-- A process gets a copy. -/
def World.give (W : World) (p : Nat) (h : Handle) : World :=
  { W with handle := fun q => if q = p then some h else W.handle q }

/-- The budget `_launch_runtime` makes, `neps/runtime.py:519-529`. -/
def launchState (maxCost : Option PyFloat) (maxEvals : Option Int) : OptState :=
  ⟨some { maxCost := maxCost, usedCost := 0, maxEvals := maxEvals, usedEvals := 0 }, .dict []⟩

/-- `Synced.new_or_load`, `neps/state/protocols.py:441-489` with `VersionedResource.new` (195-208)
and `load` (231-244), called at `neps/state/filebased.py:660-670`; `none` if it raises. -/
def open' (W : World) (p : Nat) (s : OptState) : World × Bool :=
  match W.ver with
  | none =>
    match write s with
    | (f, false) =>
      ({ W with file := f, ver := some W.next, next := W.next + 1 }.give p ⟨W.next, s⟩, true)
    | (f, true) => ({ W with file := f, ver := some W.next, next := W.next + 1 }, false)
  | some v =>
    match read W.file with
    | some s => (W.give p ⟨v, s⟩, true)
    | none => (W, false)

/-- `VersionedResource.sync`, `neps/state/protocols.py:258-269`, on entering `acquire()` (521-523);
`none` if it raises. -/
def sync (W : World) (p : Nat) : Option Handle :=
  match W.handle p, W.ver with
  | some h, some v =>
    if h.ver = v then some h
    else (read W.file).map fun s => ⟨v, s⟩
  | _, _ => none

/-- `VersionedResource.put` after `sync`, `neps/state/protocols.py:271-292`, so that the versions
agree: whether the write succeeds. If not, the file is empty, the version stays, and so does the
copy `cur` of the process. -/
def put (W : World) (p : Nat) (cur s : OptState) : World × Bool :=
  match write s with
  | (f, false) =>
    ({ W with file := f, ver := some W.next, next := W.next + 1 }.give p ⟨W.next, s⟩, true)
  | (f, true) =>
    match W.ver with
    | some v => ({ W with file := f }.give p ⟨v, cur⟩, false)
    | none => (W, false)

/-- The cost of a report is added, `neps/state/neps_state.py:169-177`. -/
def addCost (s : OptState) (cost : Option PyFloat) : OptState :=
  match s.budget, cost with
  | some b, some k => { s with budget := some { b with usedCost := b.usedCost + k } }
  | _, _ => s

/-- One operation of process `p`: the new state and what can be seen, in order. A process without a
copy (it has not called `neps.run`, or the call raised) does nothing.

* `launch`: `_launch_runtime`, `neps/runtime.py:515-531`;
* `ask`: `sample_trial`, `neps/state/neps_state.py:85-142`: the optimizer gets a clone, and the
  trial is stored before the state;
* `report`: `report_trial_evaluation`, `neps/state/neps_state.py:162-177`: the report is stored
  before the state, and the cost is added to the process's own copy. -/
def step (W : World) (p : Nat) : Op → World × List Event
  | .launch mc me =>
    match open' W p (launchState mc me) with
    | (W, true) => (W, [])
    | (W, false) => ({ W with handle := fun q => if q = p then none else W.handle q }, [.raised])
  | .ask reply =>
    match W.handle p with
    | none => (W, [])
    | some _ =>
      match sync W p with
      | none => (W, [.raised])
      | some h =>
        match reply h.cur.budget with
        | .raises | .unusable => (W.give p h, [.told h.cur.budget, .raised])
        | .config =>
          match put W p h.cur ⟨h.cur.budget, h.cur.shared⟩ with
          | (W, true) => (W, [.told h.cur.budget, .created])
          | (W, false) => (W, [.told h.cur.budget, .created, .raised])
        | .configAnd keep =>
          match put W p h.cur ⟨h.cur.budget, keep⟩ with
          | (W, true) => (W, [.told h.cur.budget, .created])
          | (W, false) => (W, [.told h.cur.budget, .created, .raised])
  | .report cost =>
    match W.handle p with
    | none => (W, [])
    | some _ =>
      match sync W p with
      | none => (W, [.reported cost, .raised])
      | some h =>
        match put W p (addCost h.cur cost) (addCost h.cur cost) with
        | (W, true) => (W, [.reported cost, .charged cost])
        | (W, false) => (W, [.reported cost, .raised])

/-- A history: the state and everything that can be seen, in order. -/
def run (W : World) : List (Nat × Op) → World × List Event
  | [] => (W, [])
  | (p, op) :: ops => ((run (step W p op).1 ops).1, (step W p op).2 ++ (run (step W p op).1 ops).2)

end Neps.Budget
