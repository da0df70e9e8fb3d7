import Verif.Args.Searcher
import Verif.Space.SpaceProps

/-!
# Model of search spaces given as `ConfigSpace` objects

`pipeline_space_from_configspace` (neps/search_spaces/search_space.py:45-95) and the part of
`_run_args` that puts the search space together (neps/api.py:285-312).

Simplification: of the library `ConfigSpace` only what the two functions read is modelled, and, to
be able to say what a space of that library means, the step width of its numerical
hyperparameters, which they do not read.
-/

namespace Verif.Args

open Verif.Space

/-- A hyperparameter of `ConfigSpace`, without its name
(neps/search_spaces/search_space.py:66-92). -/
inductive CSKind where
  | const (v : Val)
  | cat (choices : List Val) (dflt : Val)
  | ord (sequence : List Val) (dflt : Val)
  /-- a uniform integer; `step` is the attribute `q` -/
  | int (lower upper : ℤ) (log : Bool) (step : Option ℤ) (dflt : ℤ)
  /-- a uniform float; `step` is the attribute `q` -/
  | float (lower upper : ℝ) (log : Bool) (step : Option ℝ) (dflt : ℝ)
  /-- a hyperparameter of any other class, for example a normally distributed one -/
  | other

/-- A `ConfigurationSpace`: its hyperparameters by name and the numbers of its conditions and its
forbidden clauses (neps/search_spaces/search_space.py:59-65). -/
structure ConfigSpace where
  hps : Dict CSKind
  conditions : ℕ
  forbiddens : ℕ

/-- One hyperparameter (neps/search_spaces/search_space.py:66-92); the confidence is the default
one of the constructors, `low` (float.py:41-45, integer.py:37-41, categorical.py:49-53; all in
neps/search_spaces/hyperparameters). -/
noncomputable def CSKind.convert : CSKind → Option Hp
  | .const v => some (.const ⟨v, v⟩)
  | .cat choices dflt => (CatParam.make choices (some dflt) 2).map .cat
  | .ord sequence dflt => (CatParam.make sequence (some dflt) 2).map .cat
  | .int lower upper log _ dflt =>
    (IntParam.make lower upper log false (some (dflt : ℝ)) (1 / 2)).map .int
  | .float lower upper log _ dflt =>
    (FloatParam.make lower upper log false (some dflt) (1 / 2)).map .float
  | .other => none

/-- `pipeline_space_from_configspace` (neps/search_spaces/search_space.py:45-95). -/
noncomputable def fromConfigspace (c : ConfigSpace) : Option (Dict Hp) :=
  if 0 < c.conditions ∨ 0 < c.forbiddens then none
  else c.hps.foldlM (fun (d : Dict Hp) p => p.2.convert.map fun h => d.set p.1 h) []

/-- A value of the dictionary that describes a search space (neps/api.py:300-305). -/
inductive Entry where
  | own (h : Hp)
  | space (c : ConfigSpace)

/-- The argument `pipeline_space` (neps/api.py:285-297).  The case of a file is modelled by
`spaceArg`. -/
inductive SpaceIn where
  | space (c : ConfigSpace)
  | dict (d : Dict Entry)

/-- One round of the loop (neps/api.py:300-305). -/
noncomputable def addEntry (acc : Dict Hp) (p : String × Entry) : Option (Dict Hp) :=
  match p.2 with
  | .own h => some (acc.set p.1 h)
  | .space c => (fromConfigspace c).map fun d => acc.update d

/-- The search space of a run (neps/api.py:291-309). -/
noncomputable def runSpace : SpaceIn → Option SearchSpace
  | .space c => do
    let d ← fromConfigspace c
    let e ← (d.map fun p => (p.1, Entry.own p.2)).foldlM addEntry []
    SearchSpace.make e
  | .dict d => do
    let e ← d.foldlM addEntry []
    SearchSpace.make e

end Verif.Args
