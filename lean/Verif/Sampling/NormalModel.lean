import Verif.Sampling.Model
import Mathlib.MeasureTheory.Integral.IntervalIntegral.Basic
import Mathlib.Analysis.SpecialFunctions.Log.Basic
import Mathlib.Analysis.SpecialFunctions.Trigonometric.Basic

/-!
# Model of the truncated normal distribution

`TruncatedStandardNormal` and `TruncatedNormal` (neps/sampling/distributions.py:34-229), the
distribution of a numerical parameter with a default.

Simplifications, for the whole file: exact real numbers instead of `float64`; a tensor is one of its
entries; arguments are not validated (`validate_args=False`, neps/sampling/priors.py:247).
-/

namespace Verif.Sampling

open Real

/-- `torch.erf`: the error function (neps/sampling/distributions.py:125). -/
noncomputable def erf (x : ℝ) : ℝ := 2 / √π * ∫ t in (0 : ℝ)..x, exp (-t ^ 2)

/-- `torch.erfinv`: a number whose error function is the argument
(neps/sampling/distributions.py:130). -/
noncomputable def erfinv (y : ℝ) : ℝ := Function.invFun erf y

/-- `clamp(lo, hi)` of a tensor, `min(max(x, lo), hi)` (neps/sampling/distributions.py:85,126,136,141). -/
noncomputable def clamp (lo hi x : ℝ) : ℝ := min (max x lo) hi

/-- `_little_phi` (neps/sampling/distributions.py:120-122). -/
noncomputable def littlePhi (x : ℝ) : ℝ := exp (-(x ^ 2) * (1 / 2)) * (1 / √(2 * π))

/-- `_big_phi` (neps/sampling/distributions.py:124-126). -/
noncomputable def bigPhi (x : ℝ) : ℝ := clamp eps (1 - eps) (1 / 2 * (1 + erf (x * (1 / √2))))

/-- `_inv_big_phi` (neps/sampling/distributions.py:128-130). -/
noncomputable def invBigPhi (x : ℝ) : ℝ := √2 * erfinv (2 * x - 1)

/-- A `TruncatedNormal` (neps/sampling/distributions.py:162-200): the mean and the standard deviation
of the normal distribution, and the bounds. -/
structure TruncNormal where
  loc : ℝ
  scale : ℝ
  lower : ℝ
  upper : ℝ

namespace TruncNormal

/-- `TruncatedNormal.__init__` (neps/sampling/distributions.py:186-196): the scale is at least `eps`,
and the range must not be empty (neps/sampling/distributions.py:75-76). -/
noncomputable def make (loc scale lower upper : ℝ) : Option TruncNormal :=
  let scale := max scale eps
  if (upper - loc) / scale ≤ (lower - loc) / scale then none else some ⟨loc, scale, lower, upper⟩

variable (d : TruncNormal)

/-- `_to_std_rv` (neps/sampling/distributions.py:202-203), also used for `a` and `b` (lines 194-195). -/
noncomputable def toStd (x : ℝ) : ℝ := (x - d.loc) / d.scale

/-- `_from_std_rv` (neps/sampling/distributions.py:205-206). -/
noncomputable def fromStd (x : ℝ) : ℝ := x * d.scale + d.loc

/-- `_Z` (neps/sampling/distributions.py:83-85). -/
noncomputable def z : ℝ :=
  clamp eps (1 - eps) (bigPhi (d.toStd d.upper) - bigPhi (d.toStd d.lower))

/-- `cdf` (neps/sampling/distributions.py:132-136,208-210). -/
noncomputable def cdf (x : ℝ) : ℝ :=
  clamp 0 1 ((bigPhi (d.toStd x) - bigPhi (d.toStd d.lower)) / d.z)

/-- `TruncatedStandardNormal.icdf` (neps/sampling/distributions.py:138-142). -/
noncomputable def stdIcdf (p : ℝ) : ℝ :=
  invBigPhi (clamp eps (1 - eps) (bigPhi (d.toStd d.lower) + p * d.z))

/-- `icdf` (neps/sampling/distributions.py:212-224): clipped to the bounds. -/
noncomputable def icdf (p : ℝ) : ℝ := min (max (d.fromStd (d.stdIcdf p)) d.lower) d.upper

/-- `log_prob` (neps/sampling/distributions.py:144-148,226-229). -/
noncomputable def logProb (x : ℝ) : ℝ :=
  Real.log (1 / √(2 * π)) - Real.log d.z - (d.toStd x) ^ 2 * (1 / 2) - Real.log d.scale

/-- `mean` (neps/sampling/distributions.py:93,198). -/
noncomputable def mean : ℝ :=
  -(littlePhi (d.toStd d.upper) - littlePhi (d.toStd d.lower)) / d.z * d.scale + d.loc

end TruncNormal

end Verif.Sampling
