import Mathlib.Data.Rat.Defs
import Mathlib.Algebra.Order.Ring.Rat
import Mathlib.Data.List.Dedup
import Mathlib.Data.Rat.Floor

/-!
# Model of the sampler that mutates good configurations

`MutationSampler` and `RandomSampler`, `neps/optimizers/bayesian_optimization/acquisition_samplers/`.

Simplifications: a configuration is an element of a type `X`; the outcomes of `SearchSpace.mutate` and
`SearchSpace.sample` are inputs, one for each call; losses and the values of the acquisition function
are rational numbers; `np.argpartition` and `topk` give no order among the chosen candidates, here it
is that of their values.
-/

namespace Verif.Bo.Pool

variable {X : Type}

/-- What is drawn: the outcome of the `t`-th mutation (`none`: it raises) and the hash of what comes
out, and the outcome of the `t`-th random sample (`none`: no valid sample in `patience` tries). The
hash is that of the view `hp_values().values()`, which python computes from its address
(`neps/optimizers/bayesian_optimization/acquisition_samplers/mutation_sampler.py:134-135`). -/
structure Draws (X : Type) where
  mutate : ℕ → X → Option X
  hash : ℕ → ℕ
  sample : ℕ → Option X

/-- The settings, `mutation_sampler.py:48-75`; `same` is the equality of configurations. -/
structure Settings (X : Type) where
  poolSize : ℕ
  nBest : ℕ
  /-- an absolute number, or a part of the pool -/
  mutateSize : ℕ ⊕ ℚ
  allowIsomorphism : Bool
  patience : ℕ
  same : X → X → Bool

/-- `__init__`, `mutation_sampler.py:63-66` and `base_acq_sampler.py:15-17`: what is accepted. -/
def Settings.accepted (S : Settings X) : Bool :=
  decide (1 ≤ S.patience) && match S.mutateSize with
    | .inl m => decide (m ≤ S.poolSize)
    | .inr _ => true

/-- What changes while the pool is made: the number of mutations so far, and the hashes seen. -/
structure Progress where
  calls : ℕ := 0
  seen : List ℕ := []
deriving DecidableEq, Repr

/-- The loop for one child of `config`, `mutation_sampler.py:143-164`, with its remaining patience:
the child, if there is one, and the patience left. -/
def oneChild (S : Settings X) (D : Draws X) (config : X) : ℕ → Progress → Option X × ℕ × Progress
  | 0, s => (none, 0, s)
  | p + 1, s =>
    match D.mutate s.calls config with
    | none => oneChild S D config p { s with calls := s.calls + 1 }
    | some child =>
      if !S.allowIsomorphism && (S.same child config || s.seen.contains (D.hash s.calls)) then
        oneChild S D config p { s with calls := s.calls + 1 }
      else (some child, p + 1, ⟨s.calls + 1, D.hash s.calls :: s.seen⟩)

/-- The children of a configuration, `mutation_sampler.py:142-164`: `n` times the loop, with one
patience for all. -/
def childrenOf (S : Settings X) (D : Draws X) (config : X) : ℕ → ℕ → Progress → List X × Progress
  | 0, _, s => ([], s)
  | n + 1, p, s =>
    let r := oneChild S D config p s
    let q := childrenOf S D config n r.2.1 r.2.2
    (r.1.toList ++ q.1, q.2)

/-- The children of all configurations, `mutation_sampler.py:140-164`. -/
def allChildren (S : Settings X) (D : Draws X) (per : ℕ) : List X → Progress → List X
  | [], _ => []
  | c :: cs, s =>
    let q := childrenOf S D c per S.patience s
    q.1 ++ allChildren S D per cs q.2

/-- The number of mutations wanted, `mutation_sampler.py:118-121`; `int()` rounds towards zero. -/
def Settings.mutations (S : Settings X) : ℕ :=
  match S.mutateSize with
  | .inl m => m
  | .inr r => ⌊r * S.poolSize⌋.toNat

/-- The configurations that are mutated, those with the least losses, `mutation_sampler.py:123-130`.
-/
def bestConfigs (S : Settings X) (x : List X) (y : List ℚ) : List X :=
  (((y.zip x).mergeSort fun a b => decide (a.1 ≤ b.1)).map (·.2)).take (min x.length S.nBest)

/-- `RandomSampler.sample_batch`, `random_sampler.py:18-21` and `base_acq_sampler.py:29-32`. -/
def randomBatch (D : Draws X) (n : ℕ) : Option (List X) := (List.range n).mapM D.sample

/-- `create_pool`, `mutation_sampler.py:108-174`; `none` is an exception. -/
def createPool (S : Settings X) (D : Draws X) (x : List X) (y : List ℚ) : Option (List X) :=
  if x.isEmpty then randomBatch D S.poolSize
  else if min x.length S.nBest = 0 then none
  else
    let kids := allChildren S D (S.mutations / min x.length S.nBest) (bestConfigs S x y) {}
    (randomBatch D (S.poolSize - kids.length)).map fun r => kids ++ r

/-- `_propose_location`, `mutation_sampler.py:22-44`, with `return_distinct`: the candidates with the
`n` largest different values, the first with each value; if there are not as many values
(`argpartition` raises), the `n` largest; `none` is an exception of `topk`. The part `[-0:]` is
everything. -/
def propose (acq : X → ℚ) (pool : List X) (n : ℕ) : Option (List X) :=
  let vs := pool.map acq
  let us := vs.dedup.mergeSort fun a b => decide (a ≤ b)
  if n ≤ us.length then
    some ((us.drop (if n = 0 then 0 else us.length - n)).filterMap fun v => pool[vs.idxOf v]?)
  else if n ≤ pool.length then
    some ((pool.mergeSort fun a b => decide (acq b ≤ acq a)).take n)
  else none

/-- `sample_batch`, `mutation_sampler.py:89-106`. -/
def sampleBatch (S : Settings X) (D : Draws X) (acq : X → ℚ) (x : List X) (y : List ℚ) (n : ℕ) :
    Option (List X) :=
  (createPool S D x y).bind fun pool => propose acq pool n

/-- `sample`, `mutation_sampler.py:85-86`: the first of a batch of one. -/
def sample (S : Settings X) (D : Draws X) (acq : X → ℚ) (x : List X) (y : List ℚ) : Option X :=
  (sampleBatch S D acq x y 1).bind List.head?

end Verif.Bo.Pool
