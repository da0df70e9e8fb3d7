import Verif.Sampling.NormalModel
import Mathlib.Probability.Distributions.Gaussian.Real
import Mathlib.Probability.ConditionalProbability

/-!
# The truncated normal distribution, as a measure
-/

namespace Verif.Sampling

open MeasureTheory ProbabilityTheory

namespace TruncNormal

/-- The normal distribution with the mean and standard deviation of `d`. -/
noncomputable def normal (d : TruncNormal) : Measure ℝ := gaussianReal d.loc (Real.toNNReal (d.scale ^ 2))

/-- The normal distribution given that its value lies within the bounds. -/
noncomputable def truth (d : TruncNormal) : Measure ℝ := (normal d)[|Set.Icc d.lower d.upper]

/-- The density of `truth` within the bounds. -/
noncomputable def density (d : TruncNormal) (x : ℝ) : ℝ :=
  gaussianPDFReal d.loc (Real.toNNReal (d.scale ^ 2)) x / d.normal.real (Set.Icc d.lower d.upper)

/-- The probability that a sample is at most `x`: `rsample` (neps/sampling/distributions.py:150-159)
hands a number that is uniform between `eps` and `1 - eps` to `icdf`. -/
noncomputable def probSample (d : TruncNormal) (x : ℝ) : ℝ :=
  (volume[|Set.Icc eps (1 - eps)]).real {p | d.icdf p ≤ x}

/-- The mean lies within the bounds, which are at least one standard deviation apart. This is so for
every default and every confidence: the bounds are 0 and 1 and the standard deviation is at most 1. -/
structure Central (d : TruncNormal) : Prop where
  scale : 0 < d.scale
  lower : d.lower ≤ d.loc
  upper : d.loc ≤ d.upper
  apart : d.scale ≤ d.upper - d.lower

end TruncNormal

end Verif.Sampling
