import Verif.Seed.Model
import Verif.Run.Spec

/-!
# Vocabulary for the properties of the generators
-/

namespace Neps.Seed

open Neps.Run

variable {G O E : Type}

/-- What the optimizer was asked with: trials, budget used, entropy. -/
def histories (W : SWorld G O E) : List (E × List View × PyFloat) := W.asked.map (·.1)

/-- What it proposed, oldest first. -/
def proposals (W : SWorld G O E) : List Sampled := W.asked.map (·.2)

/-- What one process answers that is asked with the given histories one after the other and whose
generators nobody else touches. -/
def replay (A : Optimizer G O E) : O → Rng G → List (E × List View × PyFloat) → List Sampled
  | _, _, [] => []
  | o, r, (e, ts, b) :: hs =>
    match A.ask o e ts b r with
    | none => []
    | some (s, o', r') => s :: replay A o' r' hs

/-- Two sequences of histories show the same trials and budgets; order of the trials and entropy may
differ. -/
def SameHistories (h h' : List (E × List View × PyFloat)) : Prop :=
  List.Forall₂ (fun a b => a.2.1.Perm b.2.1 ∧ a.2.2 = b.2.2) h h'

/-- The answer of the optimizer depends on the trials, the budget and the generators only: not on the
optimizer object, the operating system's entropy, or the order of the trials. `V` restricts the
histories. -/
def Independent (A : Optimizer G O E) (V : List View → Prop) : Prop :=
  ∀ o o' e e' ts ts' b r, V ts → ts'.Perm ts →
    (A.ask o e ts b r).map (fun p => (p.1, p.2.2)) =
      (A.ask o' e' ts' b r).map (fun p => (p.1, p.2.2))

/-- All hosts have CUDA or none has. -/
def SameHosts (r₀ : Rng G) (rng : Nat → Rng G) : Prop :=
  ∀ w, (rng w).cuda.isSome = r₀.cuda.isSome

/-- Not a kill between the storing of a trial and of the generators. -/
def SAct.clean : SAct G E → Bool
  | .killSampling .. => false
  | .act .. => true

/-- Not a kill inside the creation of a trial either. -/
def SAct.whole : SAct G E → Bool
  | .act (.killCreating ..) _ _ => false
  | .killSampling .. => false
  | .act .. => true

/-- The first `n` configurations drawn from generator state `r`. -/
def draws (draw : Rng G → List (String × PyVal) × Rng G) : Nat → Rng G → List (List (String × PyVal))
  | 0, _ => []
  | n + 1, r => (draw r).1 :: draws draw n (draw r).2

/-- The configuration stored for a trial. -/
def configOf (W : World) (id : String) : Option (List (String × PyVal)) :=
  (W.stored id).map (·.config)

/-- For optimizer `A` and initial generators `r₀`, the proposals of a run are determined by the
stored trials: they do not depend on which process sampled, on restarts, or on what evaluations do
with the generators. -/
def Reproducible (A : Optimizer G O E) (ok : SAct G E → Bool) : Prop :=
  ∀ (r₀ : Rng G) (rng rng' : Nat → Rng G) (fs : String → Option PyFloat) (st st' : Nat → Settings)
    (as as' : List (SAct G E)), SameHosts r₀ rng → SameHosts r₀ rng' →
    (∀ a ∈ as, ok a) → (∀ a ∈ as', ok a) →
    SameHistories (histories (srun A fs st (start A r₀ rng) as))
      (histories (srun A fs st' (start A r₀ rng') as')) →
    proposals (srun A fs st (start A r₀ rng) as) = proposals (srun A fs st' (start A r₀ rng') as')

end Neps.Seed
