import Verif.Space.NewConfig
import Verif.Space.SpaceSpec

/-!
# Specification of new configurations
-/

namespace Verif.Space

/-- `c` is the configuration `base`, to be evaluated at budget `b`. -/
def SearchSpace.AtBudget (base : SearchSpace) (b : ℝ) (c : SearchSpace) : Prop :=
  List.Forall₂ (fun p q => q.1 = p.1 ∧ p.2.SameDecl q.2 ∧
    q.2.value = if p.2.isFidelity then some (.num b) else p.2.value) base c

/-- Two spaces of the same names, ranges and fidelity; the defaults may differ. -/
def SearchSpace.SameRanges (s t : SearchSpace) : Prop :=
  List.Forall₂ (fun p q => q.1 = p.1 ∧ p.2.SameRange q.2) s t

/-- The values of two configurations agree. -/
def SearchSpace.SameValues (c d : SearchSpace) : Prop :=
  List.Forall₂ (fun p q => q.1 = p.1 ∧ q.2.value = p.2.value) c d

/-- The share of the new configurations that a policy draws from the prior. -/
noncomputable def NewOpts.policyShare (o : NewOpts) : ℝ :=
  match o.policy with
  | .absent => if o.usePriors then 1 else 0
  | .uniform => 0
  | .fixedPrior f => f

/-- The fidelity of a space admits the budget. -/
def SearchSpace.Admits (s : SearchSpace) (b : ℝ) : Prop :=
  ∃ p ∈ s, p.2.isFidelity = true ∧ p.2.Accepts (.num b)

/-- Pairs of random numbers. -/
def unitSquare : Set (ℝ × ℝ) := Set.Ico 0 1 ×ˢ Set.Ico 0 1

end Verif.Space
