import Verif.Seed.Spec
import Verif.MF.Spec

/-!
# The multi-fidelity optimizers inside a run

The optimizers of `Verif.MF` seen as optimizers of the worker transition system: trials are read
from and stored in the shared directory.
-/

namespace Neps.Seed

open Neps.Run Neps.MF

variable {G E P F : Type}

/-- How a configuration is written as a dictionary (`hp_values()`) and read back
(`pipeline_space.from_dict`): `F` is the value of the fidelity, `P` the other hyperparameters. -/
structure Codec (P F : Type) where
  enc : P → F → List (String × PyVal)
  dec : List (String × PyVal) → Option (P × F)

/-- Reading gives back what was written. -/
def Codec.Faithful (K : Codec P F) : Prop := ∀ p f, K.dec (K.enc p f) = some (p, f)

/-- What the report of a trial says, `Trial.into_config_result`, `neps/state/trial.py:172-191`: a
dictionary with the loss or `"error"`; a dictionary whose loss is `None` raises later
(`float(None)`, `neps/optimizers/base_optimizer.py:92-140`). -/
def resOf : Option (ReportedAs × Option PyFloat × Option PyFloat × Option (List PyFloat)) → Option Res
  | none => some .pending
  | some (.success, some l, _) => some (.loss l)
  | some (.success, none, _) => none
  | some _ => some .error

/-- A trial as the multi-fidelity optimizers read it, `successive_halving.py:216-220,226-253,327-336`
(`none`: an exception). -/
def recOf (K : Codec P F) (v : View) : Option (Rec P F) :=
  match Ids.parseId v.id.toList, K.dec v.config, resOf v.result with
  | some (c, r), some (p, f), some res => some ⟨⟨c, r⟩, p, f, res⟩
  | _, _, _ => none

/-- The id of a trial, `successive_halving.py:419-420,452`. -/
def idStr (k : Key) : String := String.ofList (Ids.fmtId k.cfg k.rung)

/-- What is random in a multi-fidelity optimizer: the bracket of asynchronous hyperband
(`hyperband.py:421-437`), the new configuration (`successive_halving.py:426-445`; the default if
there are no trials and priors are used, else uniform with probability `random_interleave_prob` or
from the sampling policy, which looks at the trials in PriorBand) and the coin
`random.Random(None)` for that, which does not come from the global generators
(`successive_halving.py:424,438`). -/
structure MFParts (G E P F : Type) where
  choose : Rng G → AskFn P F × Rng G
  draw : (seen : List (Rec P F)) → (interleaved : Bool) → Rng G → P × Rng G
  interleave : E → Bool

/-- `ask` of `SuccessiveHalving`, `AsynchronousSuccessiveHalving`, `Hyperband` and
`AsynchronousHyperband`, `successive_halving.py:321-364,404-454` and `hyperband.py:127-173`.
A promotion draws no configuration. -/
def multiFidelity (K : Codec P F) (M : MFParts G E P F) : Optimizer G Unit E where
  init := ()
  ask _ e ts _ r :=
    match ts.mapM (recOf K) with
    | none => none
    | some H =>
      let f := (M.choose r).1
      let r₁ := (M.choose r).2
      let d := M.draw H (M.interleave e) r₁
      match f H d.1 with
      | .error _ => none
      | .ok p =>
        some (⟨idStr p.key, K.enc p.params p.fid, p.prev.map idStr⟩, (),
          if p.prev.isSome then r₁ else d.2)

/-- The trials of a shared directory as the multi-fidelity optimizers read them. -/
def readAll (K : Codec P F) (W : World) : Option (List (Rec P F)) :=
  W.trials.mapM (fun t => recOf K (view t))

end Neps.Seed
