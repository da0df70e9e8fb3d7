import Verif.Space.SearchSpace
import Verif.Space.Spec

/-!
# Model of the samplers and priors

`neps/sampling/samplers.py`, `neps/sampling/priors.py` and what they use of
`neps/sampling/distributions.py`.

Simplifications, for the whole file: tensors are lists of rows of exact real numbers; every random
draw is a parameter of the model (so the theorems hold for all draws); an exception is `none`;
devices and dtypes are left out.  A single target domain is the list with a copy of it for every
column (neps/search_spaces/domain.py:371-376).
-/

namespace Verif.Sampling

open Verif.Space

/-! ## The border sampler -/

/-- The argument `n` of `sample` (neps/sampling/samplers.py:34): a number of points or the shape
of the tensor of points. -/
inductive Size where
  | count (n : ℕ)
  | shape (s : List ℕ)

/-- `reduce(lambda x, y: x * y, n)`: the empty shape raises. -/
def Size.product : List ℕ → Option ℕ
  | [] => none
  | a :: s => some (s.foldl (· * ·) a)

/-- `BorderSampler.n_possible` (neps/sampling/samplers.py:295-298). -/
def nPossible (d : ℕ) : ℕ := 2 ^ d

/-- `_arange` (neps/sampling/samplers.py:312).  Simplification: the integers are unbounded (the
code uses 32 bits, and memory for all of them). -/
def arange (d : ℕ) : List ℕ := List.range (nPossible d)

/-- The number of samples (neps/sampling/samplers.py:314-324). -/
def borderTotal (d : ℕ) : Size → Option ℕ
  | .count n => some (min n (nPossible d))
  | .shape s => do
    let total ← Size.product s
    if total > nPossible d then none else some total

/-- The chosen corners, as numbers (neps/sampling/samplers.py:326-333); `perm` is what
`torch.randperm` returns. -/
def borderIds (d total : ℕ) (perm : List ℕ) : Option (List ℕ) :=
  if nPossible d ≤ total then some (arange d)
  else (perm.take total).mapM fun i => (arange d)[i]?

/-- The coordinates of a corner in the unit cube (neps/sampling/samplers.py:336-337). -/
noncomputable def cornerRow (d c : ℕ) : List ℝ :=
  (((arange d).take d).map fun j => 2 ^ j).map fun mask => if c &&& mask ≠ 0 then 1 else 0

/-- `BorderSampler.sample` (neps/sampling/samplers.py:300-340).  Simplification: the result is
given as the list of its rows; `view` (line 339) only groups them. -/
noncomputable def border (d : ℕ) (n : Size) (tgt : List Domain) (perm : List ℕ) :
    Option (List (List ℝ)) := do
  let total ← borderTotal d n
  let ids ← borderIds d total perm
  if tgt.length ≠ d then none
  else (ids.map (cornerRow d)).mapM fun row =>
    Domain.translate row (List.replicate d Domain.unitFloat) tgt

/-! ## The weighted sampler -/

/-- A sampler (neps/sampling/samplers.py:24-58): the number of columns and the rows it returns for
a number of points and target domains. -/
structure Sampler where
  ncols : ℕ
  sample : ℕ → List Domain → Option (List (List ℝ))

/-- `WeightedSampler.__post_init__` (neps/sampling/samplers.py:189-208): the probabilities of the
samplers.  A sum of weights of zero does not give numbers. -/
noncomputable def weightedProbs (samplers : List Sampler) (weights : List ℝ) : Option (List ℝ) :=
  if samplers.length < 2 then none
  else if samplers.length ≠ weights.length then none
  else if ¬ ∀ s ∈ samplers, ∀ t ∈ samplers, s.ncols = t.ncols then none
  else weights.mapM fun w => fdiv w weights.sum

/-- `torch.where(chosen_samplers == _i)[0]` (neps/sampling/samplers.py:267). -/
def whereEq (chosen : List ℕ) (i : ℕ) : List ℕ :=
  (List.range chosen.length).filter fun p => chosen[p]? = some i

/-- `output_samples[indices] = samples` (neps/sampling/samplers.py:278): as many rows as indices,
or a single row for all of them, otherwise the shapes do not match. -/
def assignRows {α : Type*} (out : List α) (indices : List ℕ) (rows : List α) : Option (List α) :=
  if rows.length = indices.length then
    some ((indices.zip rows).foldl (fun acc p => acc.set p.1 p.2) out)
  else
    match rows with
    | [r] => some (indices.foldl (fun acc p => acc.set p r) out)
    | _ => none

/-- One round of the loop over the samplers (neps/sampling/samplers.py:264-278). -/
def weightedStep (tgt : List Domain) (chosen : List ℕ) (out : List (List ℝ)) (p : ℕ × Sampler) :
    Option (List (List ℝ)) :=
  let indices := whereEq chosen p.1
  if 0 < indices.length then do
    let rows ← p.2.sample indices.length tgt
    assignRows out indices rows
  else some out

/-- `WeightedSampler.sample` (neps/sampling/samplers.py:216-281): `chosen` is the draw of
`torch.multinomial`, one index of a sampler per point, `init` the contents of the uninitialised
tensor. -/
def weightedSample (samplers : List Sampler) (tgt : List Domain) (chosen : List ℕ)
    (init : List (List ℝ)) : Option (List (List ℝ)) :=
  ((List.range samplers.length).zip samplers).foldlM (weightedStep tgt chosen) init

/-! ## Priors -/

/-- The distributions of a prior (neps/sampling/priors.py:196-251). -/
inductive Dist where
  | uniform
  | truncNormal (loc scale : ℝ)
  | categorical (weights : List ℝ)

/-- `TorchDistributionWithDomain` (neps/sampling/distributions.py:253-258). -/
structure DistDom where
  dist : Dist
  domain : Domain

/-- `weights[i] = v` on a tensor: negative indices count from the end. -/
def setAt {α : Type*} (l : List α) (i : ℤ) (v : α) : Option (List α) :=
  if 0 ≤ i ∧ i < l.length then some (l.set i.toNat v)
  else if i < 0 ∧ -(l.length : ℤ) ≤ i then some (l.set (i + l.length).toNat v)
  else none

/-- `TruncatedStandardNormal.eps` (neps/sampling/distributions.py:44). -/
noncomputable def eps : ℝ := 1 / 1000000

/-- One round of the loop of `Prior.make_centered` (neps/sampling/priors.py:197-251).  The scale
is clamped by `TruncatedNormal` (neps/sampling/distributions.py:186-187). -/
noncomputable def centeredOne (domain : Domain) (center : Option (ℝ × ℝ)) : Option DistDom :=
  match center with
  | none => some ⟨.uniform, Domain.unitFloat⟩
  | some (center, conf) =>
    if ¬ (0 ≤ conf ∧ conf ≤ 1) then none
    else if domain.isCategorical then do
      let k ← domain.card
      let ints ← Domain.indices k.toNat domain.isCategorical
      let q ← ints.card
      let rest ← fdiv (1 - conf) (((q - 1 : ℤ)) : ℝ)
      let i ← ints.cast center domain
      let weights ← setAt (List.replicate q.toNat rest) ⌊i⌋ conf
      some ⟨.categorical weights, domain⟩
    else do
      let loc ← domain.toUnit center
      some ⟨.truncNormal loc (max (1 - conf) eps), Domain.unitFloat⟩

/-- `Prior.make_centered` (neps/sampling/priors.py:145-253). -/
noncomputable def makeCentered (domains : List Domain) (centers : List (Option (ℝ × ℝ))) :
    Option (List DistDom) :=
  if domains.length ≠ centers.length then none
  else (domains.zip centers).mapM fun p => centeredOne p.1 p.2

/-- What the distribution of a column returns (neps/sampling/priors.py:361-362).  `raw` is a
number in the unit interval, a standard normal number (scaled, shifted and clipped by
`TruncatedNormal.icdf`, neps/sampling/distributions.py:212-224), or an index. -/
noncomputable def Dist.draw (raw : ℝ) : Dist → ℝ
  | .uniform => raw
  | .truncNormal loc scale => min (max (raw * scale + loc) 0) 1
  | .categorical _ => raw

/-- `CenteredPrior.sample`, one row (neps/sampling/priors.py:340-364). -/
noncomputable def priorRow (dists : List DistDom) (raws : List ℝ) (tgt : List Domain) :
    Option (List ℝ) :=
  Domain.translate (List.zipWith (fun d r => d.dist.draw r) dists raws) (dists.map (·.domain)) tgt

/-- The density of a truncated normal distribution up to a constant factor
(neps/sampling/distributions.py:144-148, 226-229): the logarithm is a constant minus half the
square of the standardised value. -/
noncomputable def truncNormalLogDensity (const loc scale x : ℝ) : ℝ :=
  const - ((x - loc) / scale) ^ 2 * (1 / 2) - Real.log scale

/-- A column of a `CenteredPrior` as its `log_prob` sees it: nothing for `UNIT_UNIFORM_DIST`,
otherwise the domain and the logarithm of the density (neps/sampling/priors.py:280-296).
Simplification: the density is any function. -/
abbrev Column := Option (Domain × (ℝ → ℝ))

/-- `_meaningful_ixs` (neps/sampling/priors.py:283-296). -/
def meaningful (cols : List Column) : List (ℕ × Domain × (ℝ → ℝ)) :=
  ((List.range cols.length).zip cols).filterMap fun p => p.2.map fun c => (p.1, c)

/-- `CenteredPrior.log_prob` of one row (neps/sampling/priors.py:304-338): only the meaningful
columns are translated; the translated row is indexed with the positions in the full row (lines
331, 336). -/
noncomputable def logProb (cols : List Column) (x : List ℝ) (frm : List Domain) : Option ℝ :=
  match meaningful cols with
  | [] => some 0
  | m :: ms => do
    let frm' ← (m :: ms).mapM fun c => frm[c.1]?
    let x' ← (m :: ms).mapM fun c => x[c.1]?
    let t ← Domain.translate x' frm' ((m :: ms).map (·.2.1))
    let v0 ← t[m.1]?
    let weight : ℝ := 1 / cols.length
    ms.foldlM (fun acc c => do
      let v ← t[c.1]?
      return acc + weight * c.2.2 v) (m.2.2 v0)

/-! ## Priors of search spaces -/

/-- The confidences a user can declare, `default_confidence_choice`. -/
inductive Confidence where
  | low
  | medium
  | high

/-- `_mapping` (neps/sampling/priors.py:125). -/
noncomputable def Confidence.score : Confidence → ℝ
  | .low => 1 / 4
  | .medium => 1 / 2
  | .high => 3 / 4

/-- What the prior of a search space uses of a parameter: float and integer parameters with their
domain and default, categorical parameters with their choices and the index of the default
(neps/search_spaces/hyperparameters/float.py:75, integer.py:80, categorical.py:100-107).
Simplification: the parameters are not modelled as objects here. -/
inductive PriorHp where
  | numerical (domain : Domain) (dflt : Option ℝ) (conf : Confidence)
  | categorical (choices : List Val) (dfltIndex : Option ℕ) (conf : Confidence)

namespace PriorHp

/-- `hp.domain` (neps/search_spaces/hyperparameters/numerical.py:137, categorical.py:107): the
domain of a categorical parameter is not marked as categorical. -/
noncomputable def domain : PriorHp → Option Domain
  | numerical d _ _ => some d
  | categorical choices _ _ => Domain.indices choices.length

/-- The center of a parameter (neps/sampling/priors.py:132-141). -/
noncomputable def center : PriorHp → Option (ℝ × ℝ)
  | numerical _ d c => d.map fun x => (x, c.score)
  | categorical _ i c => i.map fun (i : ℕ) => ((i : ℝ), c.score)

/-- The parameter as the encoder sees it (neps/search_spaces/encoding.py:397-406). -/
def toHP : PriorHp → HP
  | numerical d _ _ => .numerical d
  | categorical choices _ _ => .categorical choices

/-- The domain of the column the default encoder makes of a parameter
(neps/search_spaces/encoding.py:79, 177-181). -/
noncomputable def column : PriorHp → Option Domain
  | numerical _ _ _ => some Domain.unitFloat
  | categorical choices _ _ => Domain.indices choices.length true

/-- `isinstance(hp, CategoricalParameter)` -/
def isCat : PriorHp → Bool
  | categorical _ _ _ => true
  | numerical _ _ _ => false

end PriorHp

/-- `{**space.numerical, **space.categoricals}` (neps/optimizers/initial_design.py:101,
neps/optimizers/bayesian_optimization/optimizer.py:123-126): the parameters of a space, which are
sorted by name, first the numerical, then the categorical ones
(neps/search_spaces/search_space.py:199, 235-242). -/
def priorParams (space : Dict PriorHp) : Dict PriorHp :=
  let s := space.sorted
  (s.filter fun p => !p.2.isCat) ++ s.filter fun p => p.2.isCat

/-- `Prior.from_parameters(params.values())` (neps/sampling/priors.py:111-143). -/
noncomputable def fromParameters (params : Dict PriorHp) : Option (List DistDom) := do
  let domains ← params.mapM fun p => p.2.domain
  makeCentered domains (params.map fun p => p.2.center)

/-- `encoder.domains` of the default encoder (neps/search_spaces/encoding.py:249-274,391-408). -/
noncomputable def columns (params : Dict PriorHp) : Option (List Domain) :=
  params.sorted.mapM fun p => p.2.column

/-- A configuration sampled with a prior and decoded
(neps/optimizers/initial_design.py:101-126): `raws` are the draws of the parameters by name. -/
noncomputable def samplePrior (space : Dict PriorHp) (raws : String → ℝ) :
    Option (Dict Val) := do
  let params := priorParams space
  let prior ← fromParameters params
  let encoder ← Encoder.default (params.map fun p => (p.1, p.2.toHP)) [] []
  let tgt ← columns params
  let row ← priorRow prior (params.map fun p => raws p.1) tgt
  let configs ← encoder.decode [row]
  configs.head?

end Verif.Sampling
