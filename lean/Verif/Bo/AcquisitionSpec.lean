import Mathlib.Probability.Distributions.Gaussian.Real

/-!
# Specification: the expected improvement

A configuration whose loss is predicted to be normally distributed, with a mean and a variance, improves
on a target by the part of the loss that lies below the target.
-/

namespace Verif.Bo.Acq

open MeasureTheory ProbabilityTheory

/-- The expected improvement on `target`. -/
noncomputable def ExpectedImprovement (target mu var : ℝ) : ℝ :=
  ∫ y, max (target - y) 0 ∂gaussianReal mu var.toNNReal

/-- The expected improvement if target and predictions are logarithms of the losses. -/
noncomputable def ExpectedLogImprovement (target mu var : ℝ) : ℝ :=
  ∫ y, max (Real.exp target - Real.exp y) 0 ∂gaussianReal mu var.toNNReal

end Verif.Bo.Acq
