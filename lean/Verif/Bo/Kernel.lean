import Verif.Bo.Model

/-!
# Model of the covariance of the default Gaussian process

`make_default_single_obj_gp` and `default_categorical_kernel`
(neps/optimizers/bayesian_optimization/models/gp.py:54-128).

Simplifications: the kernels of gpytorch and botorch are the formulas of their documentation, over
exact real numbers; the fitted hyperparameters are parameters; an encoded configuration is the
function from its columns to their values.  The fit and the posterior are not modelled.
-/

namespace Verif.Bo

open Verif.Space

/-- The columns of a sum of kernels: the numerical ones and the categorical ones. -/
structure KernelCols where
  numerics : List ℕ
  categoricals : List ℕ

/-- The position of a column, `encoder.index_of`
(neps/search_spaces/encoding.py:261, neps/optimizers/bayesian_optimization/models/gp.py:87-90). -/
def colIndex (cols : Dict Bool) (name : String) : ℕ := cols.keys.findIdx (fun k => k = name)

/-- One step of the loop over the transformers
(neps/optimizers/bayesian_optimization/models/gp.py:86-90): `p.2` is whether the transformer is a
`CategoricalToIntegerTransformer`. -/
def splitStep (cols : Dict Bool) (k : KernelCols) (p : String × Bool) : KernelCols :=
  if p.2 then { k with categoricals := k.categoricals ++ [colIndex cols p.1] }
  else { k with numerics := k.numerics ++ [colIndex cols p.1] }

/-- The loop over the transformers (neps/optimizers/bayesian_optimization/models/gp.py:84-90). -/
def splitColumns (cols : Dict Bool) : KernelCols := cols.foldl (splitStep cols) ⟨[], []⟩

/-- The kernel that is chosen (neps/optimizers/bayesian_optimization/models/gp.py:92-128). `none`
as the list of active columns means all columns. -/
inductive GPKernel where
  | default
  | categorical (ard : ℕ) (active : Option (List ℕ))
  | mixed (ard : ℕ) (active : List ℕ) (cat : ℕ × Option (List ℕ))

/-- `default_categorical_kernel` (neps/optimizers/bayesian_optimization/models/gp.py:54-67). -/
def defaultCategorical (n : ℕ) (active : Option (List ℕ)) : ℕ × Option (List ℕ) := (n, active)

/-- `make_default_single_obj_gp` (neps/optimizers/bayesian_optimization/models/gp.py:70-128). -/
def chooseKernel (cols : Dict Bool) : GPKernel :=
  let k := splitColumns cols
  if k.categoricals.length = 0 then .default
  else if k.numerics.length = 0 then
    let c := defaultCategorical k.categoricals.length none
    .categorical c.1 c.2
  else
    .mixed k.numerics.length k.numerics
      (defaultCategorical k.categoricals.length (some k.categoricals))

/-- The fitted hyperparameters: one length scale per active column and the output scale of the
categorical kernel. -/
structure Hyper where
  numScale : ℕ → ℝ
  catScale : ℕ → ℝ
  outScale : ℝ

/-- `RBFKernel` of gpytorch on the active columns, the kernel of `SingleTaskGP` and of
`get_covar_module_with_dim_scaled_prior`: the length scales are numbered by the position among the
active columns. -/
noncomputable def rbf (dims : List ℕ) (scale : ℕ → ℝ) (x y : ℕ → ℝ) : ℝ :=
  Real.exp (-(1 / 2) * (dims.zipIdx.map fun d => ((x d.1 - y d.1) / scale d.2) ^ 2).sum)

open Classical in
/-- `ScaleKernel(CategoricalKernel(...))` of botorch on the active columns
(neps/optimizers/bayesian_optimization/models/gp.py:60-66): the mean of the disagreements over the
length scales. -/
noncomputable def catKernel (dims : List ℕ) (scale : ℕ → ℝ) (out : ℝ) (x y : ℕ → ℝ) : ℝ :=
  out * Real.exp (-((dims.zipIdx.map fun d =>
    (if x d.1 = y d.1 then 0 else 1) / scale d.2).sum / dims.length))

/-- The prior covariance of two encoded configurations with `n` columns. -/
noncomputable def covariance (n : ℕ) (h : Hyper) (x y : ℕ → ℝ) : GPKernel → ℝ
  | .default => rbf (List.range n) h.numScale x y
  | .categorical _ active => catKernel (active.getD (List.range n)) h.catScale h.outScale x y
  | .mixed _ dims (_, active) =>
    rbf dims h.numScale x y + catKernel (active.getD (List.range n)) h.catScale h.outScale x y

/-- The prior covariance of the surrogate over an encoder: the columns are sorted by name
(neps/search_spaces/encoding.py:250-251). -/
noncomputable def surrogateCov (params : Dict Bool) (h : Hyper) (x y : ℕ → ℝ) : ℝ :=
  let cols := params.sorted
  covariance cols.length h x y (chooseKernel cols)

end Verif.Bo
