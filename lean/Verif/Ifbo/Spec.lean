import Verif.Ifbo.Model

/-!
# What the properties of ifBO talk about

The levels a user expects from a step size, and which trials of a history count.
-/

namespace Verif.Ifbo

/-- The number of whole steps that fit between the bounds. -/
noncomputable def steps (lower upper step : ℝ) : ℕ := ⌊(upper - lower) / step⌋₊

/-- The lowest fidelity used: as many whole steps as possible below the upper bound. -/
noncomputable def lowest (lower upper step : ℝ) : ℝ := upper - steps lower upper step * step

/-- `n` equally spaced levels, number 0 at `lo` and number `n - 1` at `hi`. -/
noncomputable def spaced (lo hi : ℝ) (n : ℕ) (i : ℤ) : ℝ := lo + i / ((n : ℝ) - 1) * (hi - lo)

/-- The same in whole numbers: the range of `hi - lo + 1` numbers is cut into `n - 1` parts, level
`i` is the first number of part `i` and the last level is `hi`. -/
def spacedInt (lo hi : ℤ) (n : ℕ) (i : ℤ) : ℤ :=
  lo + min (i * (hi - lo + 1) / ((n : ℤ) - 1)) (hi - lo)

/-- A trial that has a result: it crashed or reported a loss that is a number. -/
def Done {α : Type} (t : Tr α) : Prop := ∃ y, minimizeY t.report = some y

end Verif.Ifbo
