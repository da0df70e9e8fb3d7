import Verif.Space.Domain

/-!
# What the properties of the search space talk about

Independent of how conversions are computed: which domains a user can declare, and which
numbers are values of a domain.
-/

namespace Verif.Space

/-- A domain a user can declare: built by `Domain.floating` or `Domain.integer` from a lower and
an upper bound in the right order (on a log scale: positive), with no bins or at least two. -/
def Declared (d : Domain) : Prop :=
  (∃ (l u : ℝ) (log : Bool) (bins : Option ℤ) (cat : Bool),
      (Domain.floating l u log bins cat = some d ∨ Domain.integer l u log bins cat = some d) ∧
      ∀ b, bins = some b → 2 ≤ b) ∧
  d.lower < d.upper ∧ (d.logBounds ≠ none → 0 < d.lower)

/-- The values of a domain: the numbers between its bounds, whole numbers only for integer
domains. -/
def IsValue (d : Domain) (x : ℝ) : Prop :=
  d.lower ≤ x ∧ x ≤ d.upper ∧ (d.isInt = true → ∃ n : ℤ, x = n)

/-- The bin values of a domain without log scale split into `q` bins: `q` equally spaced points
from the lower to the upper bound. -/
def IsBinValue (d : Domain) (q : ℤ) (x : ℝ) : Prop :=
  ∃ k : ℤ, 0 ≤ k ∧ k ≤ q - 1 ∧ x = d.lower + k / ((q - 1 : ℤ) : ℝ) * (d.upper - d.lower)

end Verif.Space
