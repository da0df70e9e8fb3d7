import Verif.Run.Model
import Verif.Opt.Ids

/-!
# Random number generators of a run

The seed state shared by the workers of a run (`neps/state/seed_snapshot.py`,
`neps/state/filebased.py:260-354`) and `NePSState.sample_trial` (`neps/state/neps_state.py:68-144`)
on top of the worker transition system: what the optimizer proposes is no longer an input, it is
computed from the stored trials and the generators.

Simplifications:
* the state of a generator is an element of an arbitrary type `G`; numpy's and python's states are
  stored whole (the code spreads each over a file and `seed_info.json`); the generators of all CUDA
  devices of a host are one state;
* every host has torch (a dependency of neps); a host has CUDA or not;
* the seed state is only changed inside `acquire()`: by theorem `C03` it is a plain shared value;
* `sample_trial` reads all trials in one step (`Verif.Seed.ReadModel` has separate steps, see `C144`).
-/

namespace Neps.Seed

open Neps.Run

variable {G O E : Type}

/-- The global generators of a process: `numpy.random`, `random`, `torch.random`, and
`torch.cuda` (`none`: the host has no CUDA). -/
structure Rng (G : Type) where
  np : G
  py : G
  torch : G
  cuda : Option G
deriving DecidableEq, Repr

/-- `SeedSnapshot`, `neps/state/seed_snapshot.py:21-33`. -/
structure Snapshot (G : Type) where
  np : G
  py : G
  torch : Option G
  cuda : Option G
deriving DecidableEq, Repr

/-- The directory `.seed_state`, `neps/state/filebased.py:267-271`. -/
structure SeedDir (G : Type) where
  np : Option G := none
  py : Option G := none
  torch : Option G := none
  cuda : Option G := none
deriving DecidableEq, Repr

/-- `SeedSnapshot.recapture` and `new_capture`, `neps/state/seed_snapshot.py:35-62`. -/
def Rng.capture (r : Rng G) : Snapshot G := ⟨r.np, r.py, some r.torch, r.cuda⟩

/-- `SeedSnapshot.set_as_global_seed_state`, `neps/state/seed_snapshot.py:64-76`. -/
def Snapshot.setGlobal (s : Snapshot G) (r : Rng G) : Rng G :=
  { np := s.np
    py := s.py
    torch := s.torch.getD r.torch
    cuda := match r.cuda with
      | none => none
      | some c => some (s.cuda.getD c) }

/-- `ReaderWriterSeedSnapshot.write`, `neps/state/filebased.py:321-354`: the torch files are written
only if there is a state, and not removed otherwise. -/
def SeedDir.write (s : Snapshot G) (d : SeedDir G) : SeedDir G :=
  { np := some s.np
    py := some s.py
    torch := match s.torch with | some t => some t | none => d.torch
    cuda := match s.cuda with | some t => some t | none => d.cuda }

/-- `ReaderWriterSeedSnapshot.read`, `neps/state/filebased.py:273-319` (`none`: a missing file). -/
def SeedDir.read (d : SeedDir G) : Option (Snapshot G) :=
  match d.np, d.py with
  | some n, some p => some ⟨n, p, d.torch, d.cuda⟩
  | _, _ => none

/-- What an optimizer sees of a trial: everything but worker names and clock readings, which none of
the optimizers uses (`Trial.into_config_result`, `neps/state/trial.py:172-191`, hands out the result
and the configuration). -/
structure View where
  id : String
  config : List (String × PyVal)
  previousId : Option String
  state : TState
  result : Option (ReportedAs × Option PyFloat × Option PyFloat × Option (List PyFloat))
deriving DecidableEq, Repr

/-- See `View`. -/
def view (t : Trial) : View where
  id := t.metadata.id
  config := t.config
  previousId := t.metadata.previousTrialId
  state := t.state
  result := t.report.map (fun r => (r.reportedAs, r.loss, r.cost, r.learningCurve))

/-- An optimizer: the state of a new optimizer object, and `ask`
(`neps/optimizers/base_optimizer.py:109-125`), which may change that object and draws from the
global generators. `E` is entropy of the operating system (`random.Random(None)`). `none`: `ask`
raises. No optimizer of neps returns a shared state. -/
structure Optimizer (G O E : Type) where
  init : O
  ask : O → E → List View → PyFloat → Rng G → Option (Sampled × O × Rng G)

/-- A run with its generators: the shared directory and the workers, `.seed_state`, the global
generators and the optimizer object of every process. `asked` is what was asked and proposed, oldest
first (not part of the program). -/
structure SWorld (G O E : Type) where
  base : World
  seed : SeedDir G
  rng : Nat → Rng G
  opt : Nat → O
  asked : List ((E × List View × PyFloat) × Sampled)

/-- A new run: the first process writes the state of its generators `r₀`
(`neps/state/filebased.py:638-639`); the generators of the other processes are in any state. -/
def start (A : Optimizer G O E) (r₀ : Rng G) (rng : Nat → Rng G) : SWorld G O E :=
  { base := {}
    seed := SeedDir.write r₀.capture {}
    rng := rng
    opt := fun _ => A.init
    asked := [] }

/-- The trials as `sample_trial` reads them, `neps/state/neps_state.py:92-95`. -/
def seen (W : World) (c : Choice) : Option (List View) :=
  (listing W c).mapM (fun id =>
    match Store.load (W.disk id) with
    | .ok h => some (view h.cur)
    | .error _ => none)

/-- The proposal inside `sample_trial`, `neps/state/neps_state.py:85-116`. -/
def propose (A : Optimizer G O E) (W : SWorld G O E) (w : Nat) (c : Choice) (e : E) :
    Option ((E × List View × PyFloat) × Sampled × O × Rng G) :=
  match seen W.base c, W.seed.read with
  | some ts, some s =>
    (A.ask (W.opt w) e ts W.base.budget (s.setGlobal (W.rng w))).map
      (fun p => ((e, ts, W.base.budget), p))
  | _, _ => none

/-- Update a function at one argument. -/
def upd {A : Type} (f : Nat → A) (w : Nat) (x : A) : Nat → A := fun w' => if w' = w then x else f w'

/-- `sample_trial`, `neps/state/neps_state.py:68-144`: the trial is stored, then the state of the
generators; if anything raises before, neither is. With `died` the process is killed in between
(lines 137 and 139). -/
def sample (A : Optimizer G O E) (fs : String → Option PyFloat) (st : Nat → Settings)
    (W : SWorld G O E) (w : Nat) (c : Choice) (e : E) (died : Bool) : SWorld G O E :=
  match propose A W w c e with
  | none => { W with base := Run.act fs st W.base (.step w { c with ask := none }) }
  | some (h, s, o, r) =>
    let b := Run.act fs st W.base (.step w { c with ask := some s })
    if b.ids = W.base.ids then { W with base := b }
    else
      { base := if died then b.killW w else b
        seed := if died then W.seed else W.seed.write r.capture
        rng := upd W.rng w r
        opt := upd W.opt w o
        asked := W.asked ++ [(h, s)] }

/-- What the scheduler does next. An `act` that is not a sampling leaves the generators of the
process in any state (`noise`): the objective may use them or seed them. -/
inductive SAct (G E : Type)
  | act (a : Act) (e : E) (noise : Rng G)
  | killSampling (w : Nat) (c : Choice) (e : E)

/-- Worker `w` is about to sample. -/
def samples (W : World) (w : Nat) : Bool := (W.worker w).alive && (W.worker w).pc == .sample

/-- Perform an action. -/
def sact (A : Optimizer G O E) (fs : String → Option PyFloat) (st : Nat → Settings)
    (W : SWorld G O E) : SAct G E → SWorld G O E
  | .act (.step w c) e noise =>
    if samples W.base w then sample A fs st W w c e false
    else
      { W with
        base := Run.act fs st W.base (.step w c)
        rng := upd W.rng w (noise.capture.setGlobal (W.rng w)) }
  | .act (.kill w) _ _ => { W with base := Run.act fs st W.base (.kill w) }
  | .act (.killCreating w c torn) e _ =>
    let c := { c with ask := (propose A W w c e).map (·.2.1) }
    { W with base := Run.act fs st W.base (.killCreating w c torn) }
  | .killSampling w c e =>
    if samples W.base w then sample A fs st W w c e true
    else { W with base := Run.act fs st W.base (.kill w) }

/-- Perform a list of actions. -/
def srun (A : Optimizer G O E) (fs : String → Option PyFloat) (st : Nat → Settings)
    (W : SWorld G O E) (as : List (SAct G E)) : SWorld G O E :=
  as.foldl (sact A fs st) W

/-! ## The optimizers -/

/-- `RandomSearch`, `neps/optimizers/random_search/optimizer.py:46-63`; `draw` is
`pipeline_space.sample(...).hp_values()`. -/
def randomSearch (draw : Rng G → List (String × PyVal) × Rng G) : Optimizer G Unit Unit where
  init := ()
  ask _ _ ts _ r :=
    some (⟨String.ofList (Ids.natStr (ts.length + 1)), (draw r).1, none⟩, (), (draw r).2)

/-- `GridSearch`, `neps/optimizers/grid_search/optimizer.py:16-44`. `seed = none` shuffles with
entropy; `shuffle` is `random.Random(seed).sample`. -/
def gridSearch (grid : List (List (String × PyVal))) (seed : Option Int)
    (shuffle : Int → List (List (String × PyVal)) → List (List (String × PyVal))) :
    Optimizer G Unit Int where
  init := ()
  ask _ e ts _ r :=
    if (ts.length : Int) > (grid.length : Int) - 1 then none
    else (shuffle (seed.getD e) grid)[ts.length]?.map
      (fun c => (⟨String.ofList (Ids.natStr ts.length), c, none⟩, (), r))

/-- `BayesianOptimization.ask`, `neps/optimizers/bayesian_optimization/optimizer.py:143-217`: the
initial design is drawn by the first `ask` of the optimizer object and kept in it. `design` is
`make_initial_design`, `model` the model based proposal. -/
def bayesian (design : Rng G → List (List (String × PyVal)) × Rng G)
    (model : List View → PyFloat → Rng G → Option (List (String × PyVal) × Rng G)) :
    Optimizer G (Option (List (List (String × PyVal)))) Unit where
  init := none
  ask o _ ts b r :=
    let (d, r) := match o with
      | some d => (d, r)
      | none => design r
    let id := String.ofList (Ids.natStr (ts.length + 1))
    match d[ts.length]? with
    | some c => some (⟨id, c, none⟩, some d, r)
    | none => (model ts b r).map (fun p => (⟨id, p.1, none⟩, some d, p.2))

end Neps.Seed
