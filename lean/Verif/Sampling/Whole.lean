import Verif.Sampling.Model

/-!
# Model of the samplers with a type for the result

The argument `dtype` of `sample`, which `Sampling/Model.lean` leaves out.  `whole` says that it is an
integer type.  Simplifications: a tensor is a list of rows of exact real numbers; storing a number in a
tensor of an integer type truncates it (`Domain.asDtype`); one row of the result at a time.
-/

namespace Verif.Sampling

open Verif.Space

/-- `Sobol.sample`, one row (neps/sampling/samplers.py:136-173): `raws` is the row of the Sobol sequence.
For an integer type it is cast before it is translated (line 164), and the translated tensor has the type
of the one that is translated (neps/search_spaces/domain.py:394). -/
noncomputable def sobolRow (whole : Bool) (raws : List ℝ) (tgt : List Domain) : Option (List ℝ) :=
  (Domain.translate (raws.map (Domain.asDtype whole)) (List.replicate raws.length Domain.unitFloat) tgt).map
    fun row => row.map (Domain.asDtype whole)

/-- `UniformPrior.sample`, one row (neps/sampling/priors.py:389-412): `raws` is what `torch.rand` returns,
always of a floating type; the type is that of the result. -/
noncomputable def uniformRow (whole : Bool) (raws : List ℝ) (tgt : List Domain) : Option (List ℝ) :=
  (Domain.translate raws (List.replicate raws.length Domain.unitFloat) tgt).map
    fun row => row.map (Domain.asDtype whole)

/-- `CenteredPrior.sample`, one row (neps/sampling/priors.py:340-364): what the distributions return is
stored in a tensor of the type (lines 360-362) before it is translated. -/
noncomputable def priorRowAs (whole : Bool) (dists : List DistDom) (raws : List ℝ) (tgt : List Domain) :
    Option (List ℝ) :=
  (Domain.translate (List.zipWith (fun d r => Domain.asDtype whole (d.dist.draw r)) dists raws)
    (dists.map (·.domain)) tgt).map fun row => row.map (Domain.asDtype whole)

/-- The row of a corner in `BorderSampler.sample` (neps/sampling/samplers.py:336-340), stored in a tensor
of the type. -/
noncomputable def cornerRowAs (whole : Bool) (d c : ℕ) (tgt : List Domain) : Option (List ℝ) :=
  (Domain.translate ((cornerRow d c).map (Domain.asDtype whole)) (List.replicate d Domain.unitFloat) tgt).map
    fun row => row.map (Domain.asDtype whole)

/-- The type a `WeightedSampler` asks its samplers for (neps/sampling/samplers.py:225-233): the one it
was asked for, or an integer type if all domains are domains of integers. -/
def weightedWhole (dtype : Option Bool) (tgt : List Domain) : Bool :=
  match dtype with
  | some whole => whole
  | none => ! tgt.any fun d => ! d.isInt

/-- A Sobol sampler as a part of a mixture, with the type the mixture asks it for; `draws n` are the
first rows of the sequence. -/
noncomputable def sobolSampler (d : ℕ) (dtype : Option Bool) (draws : ℕ → List (List ℝ)) : Sampler :=
  ⟨d, fun n tgt => (draws n).mapM fun raws => sobolRow (weightedWhole dtype tgt) raws tgt⟩

end Verif.Sampling
