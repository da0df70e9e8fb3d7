import Verif.Run.Spec

/-!
# Specification: workers that run together come to an end
-/

namespace Neps.Run

/-- Worker `w` is through: `run` has returned or raised, or the process was killed. -/
def Through (W : World) (w : Nat) : Prop :=
  (W.worker w).alive = false ∨ (∃ h, (W.worker w).pc = .stopped h) ∨
    ∃ e, (W.worker w).pc = .raised e

instance (pc : PC) : Decidable (∃ h, pc = .stopped h) := by
  cases pc <;> first | exact isTrue ⟨_, rfl⟩ | exact isFalse (by simp)

instance (pc : PC) : Decidable (∃ e, pc = .raised e) := by
  cases pc <;> first | exact isTrue ⟨_, rfl⟩ | exact isFalse (by simp)

instance (W : World) (w : Nat) : Decidable (Through W w) := by
  unfold Through; infer_instance

/-- The number of steps that workers which are not through take in an execution. -/
def effort (fs : String → Option PyFloat) (st : Nat → Settings) : World → List Act → Nat
  | _, [] => 0
  | W, a :: as =>
    (match a with
      | .step w _ => if Through W w then 0 else 1
      | _ => 0) + effort fs st (act fs st W a) as

/-- What the directory and the workers look like after the first `k` actions of an endless
schedule. -/
def after (fs : String → Option PyFloat) (st : Nat → Settings) (σ : Nat → Act) (k : Nat) : World :=
  run fs st {} ((List.range k).map σ)

/-- Every worker below `n` gets its turn again and again. -/
def Fair (n : Nat) (σ : Nat → Act) : Prop :=
  ∀ w < n, ∀ k, ∃ j ≥ k, ∃ c, σ j = .step w c

end Neps.Run
