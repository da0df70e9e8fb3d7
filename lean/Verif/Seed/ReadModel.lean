import Verif.Seed.Model

/-!
# Sampling while the other workers go on

In `Verif.Seed.Model` the worker that samples reads all trials in one step. In the program
`sample_trial` holds the locks of the optimizer state and of the seed state and reads the trials one
after the other, each under its own lock (`neps/state/neps_state.py:85-95`). Meanwhile the other
workers go on: they claim trials and store reports. They only have to wait when they want to sample
or to charge the budget, because both need the lock of the optimizer state
(`neps/state/neps_state.py:86,169`).

Kept from `Verif.Seed.Model`: opening and syncing a trial are one step (`C135` shows that the caches
make no difference), and the rest of `sample_trial` is one step, because everything it uses is
protected by the two locks.
-/

namespace Neps.Seed

open Neps.Run

variable {G O E : Type}

/-- A worker inside the loop of `sample_trial`, `neps/state/neps_state.py:92-95`: the listed trials
it has still to read, and what it has read. -/
structure Reading where
  worker : Nat
  todo : List String
  got : List View
deriving DecidableEq, Repr

/-- A run, and the worker that holds the locks of `sample_trial`. -/
structure RWorld (G O E : Type) where
  main : SWorld G O E
  reading : Option Reading := none

/-- How a sampling goes on after the reading: the new trial and the generators are stored
(`neps/state/neps_state.py:137-142`), the process is killed between lines 137 and 139, or inside
line 137 (see `Act.killCreating`). -/
inductive Ending
  | stored
  | beforeSeed
  | creating (torn : Bool)
deriving DecidableEq, Repr

/-- What the scheduler does next: a step of a worker outside of `sample_trial`, a kill, a worker that
takes the locks and lists the trials (`neps/state/neps_state.py:85-93`), the worker that holds the
locks reads the next trial (line 94), or it has read all and goes on (lines 97-142). -/
inductive RAct (G E : Type)
  | step (w : Nat) (c : Choice) (noise : Rng G)
  | kill (w : Nat)
  | lock (w : Nat) (c : Choice)
  | read (c : Choice)
  | ask (c : Choice) (e : E) (how : Ending)

/-- Worker `w` has to wait for the lock of the optimizer state, `neps/state/neps_state.py:86,169`
(a worker that is about to sample moves by `lock`, `read` and `ask` only). -/
def waits (W : RWorld G O E) (w : Nat) : Bool :=
  match (W.main.base.worker w).pc with
  | .sample => true
  | .budget _ _ => W.reading.isSome
  | _ => false

/-- The proposal when `ts` was read, `neps/state/neps_state.py:97-116`. -/
def proposeFrom (A : Optimizer G O E) (W : SWorld G O E) (w : Nat) (ts : List View) (e : E) :
    Option ((E × List View × PyFloat) × Sampled × O × Rng G) :=
  match W.seed.read with
  | some s =>
    (A.ask (W.opt w) e ts W.base.budget (s.setGlobal (W.rng w))).map
      (fun p => ((e, ts, W.base.budget), p))
  | none => none

/-- The rest of `sample_trial` when `ts` was read, `neps/state/neps_state.py:97-142`; compare
`sample`. -/
def sampleFrom (A : Optimizer G O E) (fs : String → Option PyFloat) (st : Nat → Settings)
    (W : SWorld G O E) (w : Nat) (c : Choice) (e : E) (ts : List View) (died : Bool) : SWorld G O E :=
  match proposeFrom A W w ts e with
  | none => { W with base := Run.act fs st W.base (.step w { c with ask := none }) }
  | some (h, s, o, r) =>
    let b := Run.act fs st W.base (.step w { c with ask := some s })
    if b.ids = W.base.ids then { W with base := b }
    else
      { base := if died then b.killW w else b
        seed := if died then W.seed else W.seed.write r.capture
        rng := upd W.rng w r
        opt := upd W.opt w o
        asked := W.asked ++ [(h, s)] }

/-- Perform an action. A trial that cannot be read raises, and the locks are released. -/
def ract (A : Optimizer G O E) (fs : String → Option PyFloat) (st : Nat → Settings)
    (W : RWorld G O E) : RAct G E → RWorld G O E
  | .step w c noise =>
    if waits W w then W
    else
      { W with
        main := { W.main with
          base := Run.act fs st W.main.base (.step w c)
          rng := upd W.main.rng w (noise.capture.setGlobal (W.main.rng w)) } }
  | .kill w =>
    { main := { W.main with base := Run.act fs st W.main.base (.kill w) }
      reading := W.reading.filter (fun R => R.worker ≠ w) }
  | .lock w c =>
    if W.reading.isNone && samples W.main.base w then
      { W with reading := some ⟨w, listing W.main.base c, []⟩ }
    else W
  | .read c =>
    match W.reading with
    | some ⟨w, id :: todo, got⟩ =>
      match Store.load (W.main.base.disk id) with
      | .ok h => { W with reading := some ⟨w, todo, got ++ [view h.cur]⟩ }
      | .error _ =>
        { main := { W.main with base := Run.act fs st W.main.base (.step w { c with ask := none }) }
          reading := none }
    | _ => W
  | .ask c e how =>
    match W.reading with
    | some ⟨w, [], got⟩ =>
      match how with
      | .stored => { main := sampleFrom A fs st W.main w c e got false, reading := none }
      | .beforeSeed => { main := sampleFrom A fs st W.main w c e got true, reading := none }
      | .creating torn =>
        { main := { W.main with
            base := Run.act fs st W.main.base
              (.killCreating w { c with ask := (proposeFrom A W.main w got e).map (·.2.1) } torn) }
          reading := none }
    | _ => W

/-- Perform a list of actions. -/
def rrun (A : Optimizer G O E) (fs : String → Option PyFloat) (st : Nat → Settings)
    (W : RWorld G O E) (as : List (RAct G E)) : RWorld G O E :=
  as.foldl (ract A fs st) W

/-- A new run, see `start`. -/
def rstart (A : Optimizer G O E) (r₀ : Rng G) (rng : Nat → Rng G) : RWorld G O E :=
  { main := start A r₀ rng }

end Neps.Seed
