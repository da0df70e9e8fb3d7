import Verif.Space.Prior

/-!
# Model of `prior_confidence`

`SuccessiveHalvingBase._enhance_priors` (`neps/optimizers/multi_fidelity/successive_halving.py`), called by
the constructors of successive halving, ASHA, Hyperband, PriorBand and their variants.

Simplification: `confidence_score`, which no caller passes, is left out.
-/

namespace Verif.Space

/-- `CUSTOM_FLOAT_CONFIDENCE_SCORES` (`neps/optimizers/multi_fidelity/successive_halving.py:37-38`,
`neps/search_spaces/hyperparameters/float.py:41-45`). -/
noncomputable def customFloatScore : String → Option ℝ
  | "low" => some (1 / 2)
  | "medium" => some (1 / 4)
  | "high" => some (1 / 8)
  | "ultra" => some (1 / 20)
  | _ => none

/-- `CUSTOM_CATEGORICAL_CONFIDENCE_SCORES` (`neps/optimizers/multi_fidelity/successive_halving.py:40-43`,
`neps/search_spaces/hyperparameters/categorical.py:49-53`). -/
def customCatScore : String → Option ℕ
  | "low" => some 2
  | "medium" => some 4
  | "high" => some 6
  | "ultra" => some 8
  | _ => none

/-- One iteration of the loop of `_enhance_priors`
(`neps/optimizers/multi_fidelity/successive_halving.py:467-484`): the attribute
`default_confidence_score` is assigned; of an integer parameter only its own, not the one of the float
parameter it samples from.  An unknown confidence raises `KeyError`. -/
noncomputable def Hp.enhance (confidence : String) (h : Hp) : Option Hp :=
  if h.isFidelity then some h
  else match h with
    | .float p => (customFloatScore confidence).map fun s => .float { p with score := s }
    | .int p => (customFloatScore confidence).map fun s => .int { p with score := s }
    | .cat p => (customCatScore confidence).map fun s => .cat { p with score := s }
    | .const p => some (.const p)

/-- `_enhance_priors` (`neps/optimizers/multi_fidelity/successive_halving.py:456-484`); the space as it is
afterwards, `none` if an exception is raised. -/
noncomputable def SearchSpace.enhance (usePriors : Bool) (priorConfidence : Option String)
    (s : SearchSpace) : Option SearchSpace :=
  if usePriors then
    match priorConfidence with
    | none => some s
    | some c => s.mapM fun p => (p.2.enhance c).map fun q => (p.1, q)
  else some s

end Verif.Space
