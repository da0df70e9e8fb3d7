import Verif.Ifbo.Model

/-!
# The shapes of the scores of ifBO

Model of the shapes of the tensors that go through `FTPFNSurrogate`
(`neps/optimizers/bayesian_optimization/models/ftpfn.py:94-101, 329-357`) and of what is done with the results
(`ftpfn.py:234-239`, `neps/optimizers/multi_fidelity/ifbo.py:207-219`).

About the package `ifbo`, which is not part of the repository, it is assumed that the network maps rows of
shape `(n, 1, d)` to logits of shape `(n, 1, bins)`, and that `criterion.pi` and `criterion.mean` remove the
last dimension of the logits they are given. About `torch`: `squeeze()` removes every dimension of size one,
and a tensor without dimensions cannot be indexed (`IndexError`).
-/

namespace Verif.Ifbo

/-- The shape of a tensor. -/
abbrev Shape := List ℕ

/-- `_cast_tensor_shapes` (`ftpfn.py:94-101`). -/
def castShape : Shape → Option Shape
  | [n, 1, d] => some [n, 1, d]
  | [n, d] => some [n, 1, d]
  | [n] => some [n, 1]
  | _ => none

/-- `_get_logits` (`ftpfn.py:329-336`) for test rows of the given shape. -/
def logitsShape (bins : ℕ) (test : Shape) : Option Shape :=
  match castShape test with
  | some [n, 1, _] => some [n, 1, bins]
  | _ => none

/-- `torch.squeeze()`, used at `ftpfn.py:345, 357`. -/
def squeeze (s : Shape) : Shape := s.filter fun k => decide (k ≠ 1)

/-- `get_pi` and `get_mean_performance` (`ftpfn.py:338-357`). -/
def scoresShape (bins : ℕ) (test : Shape) : Option Shape :=
  (logitsShape bins test).map fun l => (squeeze l).dropLast

/-- `best_ix = acq_scores.argmax()` and `acq_scores[best_ix].item()` (`ftpfn.py:235-238`): whether it returns.
The maximum of an empty tensor raises, an index into a tensor without dimensions does, and so does `item()` of
more than one number. -/
def picks (scores : Shape) : Bool :=
  match scores with
  | [n] => decide (0 < n)
  | _ => false

/-- `y[pending_mask] = ...` for `k` pending trials (`ifbo.py:213-217`): whether a tensor of this shape can be
assigned. -/
def assigns (k : ℕ) (s : Shape) : Bool := decide (s = [] ∨ s = [1] ∨ s = [k])

/-- The candidates for continuation (`ftpfn.py:226-232`). -/
noncomputable def existing {α : Type} (s : Optimizer α) (data : List (Row α × Option ℝ)) : List (Row α) :=
  (keepHighest ((data.filter fun r => r.2.isSome).map (·.1))).filter
    fun r => decide (r.budget < s.budgetDom.upper)

/-- `IFBO.ask` (`neps/optimizers/multi_fidelity/ifbo.py:166-286`) with the shapes of the scores of the candidates
for continuation; `d` is the number of columns. Simplification: the samples, of which there are always
several, and the pending trials are treated as in `ask`. -/
noncomputable def askShaped {α : Type} (s : Optimizer α) (bins d : ℕ) (score : Row α → ℝ)
    (batches : List (Batch α)) (ts : List (Tr α)) : Option (Proposal α) :=
  match s.design[newId ts]? with
  | some _ => ask s score batches ts
  | none => do
    let data ← encode s ts
    let old := existing s data
    if old = [] then ask s score batches ts
    else do
      let scores ← scoresShape bins [old.length, d]
      if picks scores then ask s score batches ts else none

end Verif.Ifbo
