import Verif.Space.Prior
import Verif.Space.SpaceSpec

/-!
# Specification of priors
-/

namespace Verif.Space

/-- A number on the scale of a parameter. -/
noncomputable def onScale (log : Bool) (x : ℝ) : ℝ := if log then Real.log x else x

/-- The density at `x` of the normal distribution with mean `μ` and standard deviation `σ`, restricted to
`[lo, hi]`. -/
noncomputable def truncDensity (μ σ lo hi x : ℝ) : ℝ :=
  Real.exp (-((x - μ) / σ) ^ 2 / 2) / ∫ t in lo..hi, Real.exp (-((t - μ) / σ) ^ 2 / 2)

namespace Hp

/-- The standard deviation of the prior of a numerical parameter: its confidence times the length of its
range, on its scale. -/
noncomputable def std : Hp → ℝ
  | float p => p.score * (onScale p.log p.upper - onScale p.log p.lower)
  | int p => p.score * (onScale p.log p.upper - onScale p.log p.lower)
  | _ => 1

/-- How likely value `v` is if the prior of the parameter is centered at `c`: for a number the density of the
truncated normal distribution on the scale of the parameter, in units of its standard deviation; for a
choice its probability, where `c` has the weight of the confidence and every other choice weight one. -/
noncomputable def around (h : Hp) (c v : Val) : ℝ :=
  match h, c, v with
  | float p, .num c, .num v => (float p).std *
      truncDensity (onScale p.log c) (float p).std (onScale p.log p.lower) (onScale p.log p.upper)
        (onScale p.log v)
  | int p, .num c, .num v => (int p).std *
      truncDensity (onScale p.log c) (int p).std (onScale p.log p.lower) (onScale p.log p.upper)
        (onScale p.log v)
  | cat p, c, v => (if v = c then (p.score : ℝ) else 1) / (p.score + (p.choices.length - 1))
  | _, _, _ => 1

/-- How likely the value of a parameter is under the prior around its default. -/
noncomputable def likelihood (h : Hp) : ℝ :=
  match h.dflt, h.value with
  | some c, some v => h.around c v
  | _, _ => 1

/-- Does the parameter have a prior that counts? -/
noncomputable def counts (ignoreFidelity : Bool) (h : Hp) : Bool :=
  match h with
  | const _ => false
  | h => h.dflt.isSome && !(ignoreFidelity && h.isFidelity)

/-- The confidence is positive. -/
def Confident : Hp → Prop
  | float p => 0 < p.score
  | int p => 0 < p.score
  | cat p => 0 < p.score
  | const _ => True

/-- The confidence the constructor was given is positive (it is one of 0.5, 0.25, 0.125 and 2, 4, 6). -/
def Declared (h : Hp) : Prop :=
  match h with
  | float p => 0 < p.choice
  | int p => 0 < p.choice
  | cat p => 0 < p.choice
  | const _ => True

/-- The last value set was accepted, and the default of a log scale integer is the one it was constructed
with. -/
def Settled : Hp → Prop
  | int p => p.logDflt = IntParam.logOf p.log p.dflt
  | cat p => p.valueIndex = p.value.bind (CatParam.index p.choices)
  | _ => True

/-- The value of `b` is at least as close to the default as that of `a`: on the scale of the parameter for
numbers; for choices, it is the default if that of `a` is. -/
def Closer (a b : Hp) : Prop :=
  match a with
  | float p => ∀ c x y, p.dflt = some c → a.value = some (.num x) → b.value = some (.num y) →
      |onScale p.log y - onScale p.log c| ≤ |onScale p.log x - onScale p.log c|
  | int p => ∀ (c : ℤ) (x y : ℝ), p.dflt = some c → a.value = some (.num x) → b.value = some (.num y) →
      |onScale p.log y - onScale p.log c| ≤ |onScale p.log x - onScale p.log c|
  | cat p => a.value = p.dflt → b.value = p.dflt
  | const _ => True

/-- The confidences are equal. -/
def SameScore (a b : Hp) : Prop :=
  match a, b with
  | float p, float q => q.score = p.score
  | int p, int q => q.score = p.score
  | cat p, cat q => q.score = p.score
  | _, _ => True

end Hp

end Verif.Space
