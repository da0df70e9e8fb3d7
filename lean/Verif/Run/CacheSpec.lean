import Verif.Run.CacheModel
import Verif.Run.Spec

/-!
# Vocabulary for workers that keep the trials they have opened

Compare `Verif.Run.Spec`.
-/

namespace Neps.Run

/-- The trial stored in the directory of `id`, if there is a readable one. -/
def CWorld.stored (C : CWorld) (id : String) : Option Trial :=
  match Store.load (C.disk id) with
  | .ok h => some h.cur
  | .error _ => none

/-- The worker has the result of an evaluation of this trial and has not stored it yet. -/
def CPC.reporting (id : String) : CPC → Prop
  | .report id' _ => id' = id
  | _ => False

/-- The worker is between storing a report and having charged its cost and logged its error. -/
def CPC.insideReport : CPC → Bool
  | .budget _ _ | .logErr _ _ _ => true
  | _ => false

/-- The worker that acts. -/
def CAct.who : CAct → Nat
  | .step w _ => w
  | .kill w => w
  | .killCreating w _ _ => w
  | .lockTimeout w _ => w

/-- An action that is not a lock timeout. -/
def CAct.gotLock : CAct → Prop
  | .lockTimeout _ _ => False
  | _ => True

instance (a : CAct) : Decidable a.gotLock := by
  cases a <;> simp only [CAct.gotLock] <;> infer_instance

/-- `as` and `bs` are the same turns of the same workers, where a turn can be any number of actions
in `bs`. -/
def SameTurns (as : List CAct) (bs : List (List Act)) : Prop :=
  List.Forall₂ (fun a b => ∀ x ∈ b, x.who = a.who) as bs

/-- Seen from outside, the workers with caches and the workers without are in the same situation: the
directory, the budget, the error log, everything that happened, and how each worker is doing. -/
structure LooksLike (C : CWorld) (W : World) : Prop where
  ids : C.ids = W.ids
  disk : C.disk = W.disk
  budget : C.budget = W.budget
  errs : C.errs = W.errs
  log : C.log = W.log
  alive : ∀ w, (C.worker w).alive = (W.worker w).alive
  count : ∀ w, (C.worker w).count = (W.worker w).count
  cost : ∀ w, (C.worker w).cost = (W.worker w).cost
  err : ∀ w, (C.worker w).err = (W.worker w).err
  stopped : ∀ w h, (C.worker w).pc = .stopped h ↔ (W.worker w).pc = .stopped h
  raised : ∀ w e, (C.worker w).pc = .raised e ↔ (W.worker w).pc = .raised e
  evaluating : ∀ w id, (C.worker w).pc = .eval id ↔ ∃ h, (W.worker w).pc = .eval id h
  insideReport : ∀ w, (C.worker w).pc.insideReport = (W.worker w).pc.insideReport

end Neps.Run
