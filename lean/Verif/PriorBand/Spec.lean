import Verif.PriorBand.Model
import Verif.MF.Spec
import Mathlib.Order.Interval.Finset.Nat
import Mathlib.Algebra.BigOperators.Group.Finset.Basic

/-!
# Specification of the sampling weights of PriorBand

The vocabulary of the properties C42, C82 and C83.
-/

namespace Verif.PriorBand

open Neps Neps.MF

/-- The weights are a probability distribution. -/
structure Weights.Distribution (w : Weights) : Prop where
  prior : 0 ≤ w.prior
  inc : 0 ≤ w.inc
  random : 0 ≤ w.random
  sum : w.prior + w.inc + w.random = 1

/-- A view as an optimizer has it: a reduction factor of at least one, positive budgets and a score
that is not negative. -/
structure View.Sane (v : View) : Prop where
  eta : 1 ≤ v.self.eta
  rungs : v.self.minR ≤ v.self.maxR
  maxBudget : 0 < v.maxBudget
  budget : ∀ r, 0 ≤ v.self.budget r
  score : ∀ c, 0 ≤ (v.score c).1 ∧ 0 ≤ (v.score c).2

/-- The weighted sum of scores in which, of `n` scores, the one in position `i` counts `n - i`
times. -/
noncomputable def ByRank (xs : List ℝ) : ℝ :=
  ((List.range xs.length).map fun i => (((xs.length - i : ℕ) : ℝ)) * xs.getD i 0).sum

variable {P F : Type}

/-- The trial counts as spent resources: it is the trial of its configuration at the highest rung,
it is finished, and its loss is not NaN. -/
def Counts (st : Settings) (H : List (Rec P F)) (t : Rec P F) : Prop :=
  (∀ t' ∈ H, t'.key.cfg = t.key.cfg → t'.key.rung ≤ t.key.rung) ∧ t.res ≠ .pending ∧
    lossOf st t ≠ some .nan

instance (st : Settings) (H : List (Rec P F)) (t : Rec P F) : Decidable (Counts st H t) := by
  unfold Counts; infer_instance

/-- What the evaluations of a bracket cost if a promoted configuration continues where it stopped:
full price at the lowest rung, the difference of the budgets above. -/
noncomputable def BracketCost (b : Bracket ℝ) : ℝ :=
  (b.cap b.minR : ℝ) * b.budget b.minR +
    ∑ r ∈ Finset.Ioc b.minR b.maxR, (b.cap r : ℝ) * (b.budget r - b.budget (r - 1))

end Verif.PriorBand
