import Verif.Sampling.Model

/-!
# What the properties of samplers and priors talk about
-/

namespace Verif.Sampling

open Verif.Space

/-- A corner of the box spanned by the domains: every coordinate is the lower or the upper bound
of its domain. -/
def IsCorner (domains : List Domain) (row : List ℝ) : Prop :=
  List.Forall₂ (fun v d => v = d.lower ∨ v = d.upper) row domains

/-- The rows that belong to the points for which the `i`-th sampler was chosen, in order. -/
def rowsOf {α : Type*} (chosen : List ℕ) (rows : List α) (i : ℕ) : List α :=
  ((chosen.zip rows).filter fun p => p.1 = i).map (·.2)

/-- Probabilities: not negative, with sum one. -/
def IsProbability (w : List ℝ) : Prop := (∀ x ∈ w, 0 ≤ x) ∧ w.sum = 1

/-- The value a parameter `hp` takes if its column is sampled from the prior of the parameter
`g`, with the draw `raw`: the draw is cast into the column of `hp` and decoded. -/
noncomputable def valueFrom (hp g : PriorHp) (raw : ℝ) : Option Val := do
  let dom ← g.domain
  let dd ← centeredOne dom g.center
  let col ← hp.column
  let x ← col.cast (dd.dist.draw raw) dd.domain
  match hp with
  | .numerical d _ _ => (d.fromUnit x).map .num
  | .categorical choices _ _ => catDecode choices x

/-- The value a parameter should take: sampled from its own prior. -/
noncomputable def ownValue (hp : PriorHp) (raw : ℝ) : Option Val := valueFrom hp hp raw

/-- A parameter as a search space allows it: a float or integer domain with a value of it as
default, or at least two choices, the default among them. -/
def PriorHp.Ok : PriorHp → Prop
  | .numerical d dflt _ => Declared d ∧ d.isCategorical = false ∧ ∀ x, dflt = some x → IsValue d x
  | .categorical choices dflt _ => 2 ≤ choices.length ∧ ∀ i, dflt = some i → i < choices.length

/-- A draw the distribution of the parameter can make: a number of the unit interval without
default, any number with a default. -/
def PriorHp.Drawable (hp : PriorHp) (raw : ℝ) : Prop := hp.center = none → 0 ≤ raw ∧ raw ≤ 1

end Verif.Sampling
