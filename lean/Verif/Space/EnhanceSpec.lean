import Verif.Space.PriorSpec

/-!
# Specification of the confidence in the prior
-/

namespace Verif.Space

/-- The levels of confidence, in increasing order. -/
inductive Confidence where
  | low | medium | high | ultra
deriving DecidableEq

namespace Confidence

/-- How a user writes it. -/
def name : Confidence → String
  | low => "low"
  | medium => "medium"
  | high => "high"
  | ultra => "ultra"

/-- The position in the order. -/
def rank : Confidence → ℕ
  | low => 0
  | medium => 1
  | high => 2
  | ultra => 3

/-- The standard deviation of the prior of a number, as a share of the length of its range. -/
noncomputable def spread : Confidence → ℝ
  | low => 0.5
  | medium => 0.25
  | high => 0.125
  | ultra => 0.05

/-- How many times likelier than another choice the default of a categorical parameter is. -/
noncomputable def weight : Confidence → ℝ
  | low => 2
  | medium => 4
  | high => 6
  | ultra => 8

end Confidence

/-- The length of the range of a float parameter, on its scale. -/
noncomputable def FloatParam.extent (p : FloatParam) : ℝ := onScale p.log p.upper - onScale p.log p.lower

/-- `z` is a possible draw of the normal distribution truncated to the range of the parameter, for a prior
centered at `d` with standard deviation `σ`, in units of `σ`. -/
def FloatParam.Possible (p : FloatParam) (d σ z : ℝ) : Prop :=
  onScale p.log p.lower ≤ onScale p.log d + z * σ ∧ onScale p.log d + z * σ ≤ onScale p.log p.upper

/-- A parameter `prior_confidence` applies to. -/
def Hp.Concerned : Hp → Prop
  | .const _ => False
  | h => h.isFidelity = false

end Verif.Space
