import Verif.Space.SearchSpace

/-!
# Model of the YAML part of the run arguments

`neps/utils/run_args.py`: reading the arguments of `neps.run` from a YAML document.

Simplifications, for the whole file: a document is a tree (the YAML syntax is not modelled); keys
are texts; floats are exact rational numbers; an exception is `none`.
-/

namespace Verif.Args

open Verif.Space (Dict)

/-- Python objects that are not plain data.  Simplification: only the distinctions the code
makes. -/
inductive Obj where
  /-- a callable that is not a class -/
  | func (id : String)
  /-- a subclass of `BaseOptimizer` -/
  | optClass (id : String)
  /-- any other class -/
  | otherClass (id : String)
  /-- an instance of `BaseOptimizer` -/
  | optInst (id : String)
  /-- a `pathlib.Path` -/
  | path (p : String)
  /-- a dictionary of hyperparameters -/
  | space (d : Dict Verif.Space.Hp)
  /-- an object of some other type, neither callable nor a container -/
  | other (id : String)

/-- A Python value: the values `yaml.safe_load` returns (neps/utils/run_args.py:134) and other
objects. -/
inductive Py where
  | null
  | bool (b : Bool)
  | int (n : ℤ)
  | float (x : ℚ)
  | str (s : String)
  | list (l : List Py)
  | dict (d : List (String × Py))
  | obj (o : Obj)

namespace Py

/-- `v != "None"` is false -/
def isNoneText : Py → Bool
  | str s => s == "None"
  | _ => false

/-- `v is None` -/
def isNull : Py → Bool
  | null => true
  | _ => false

/-- Python's truth value: empty containers, zero, the empty text and `None` are false. -/
def truthy : Py → Bool
  | null => false
  | bool b => b
  | int n => n != 0
  | float x => x != 0
  | str s => s != ""
  | list l => !l.isEmpty
  | dict d => !d.isEmpty
  | obj (.space d) => !d.isEmpty
  | obj _ => true

end Py

/-- The special keys (neps/utils/run_args.py:161-167). -/
def specialNames : List String := ["run_pipeline", "pre_load_hooks", "searcher", "pipeline_space"]

/-- The value of `special_keys` at the beginning: no special key has been seen
(neps/utils/run_args.py:161-167). -/
def noSpecials : Dict Py := specialNames.map fun k => (k, Py.null)

mutual

/-- The loop of `extract_leaf_keys` (neps/utils/run_args.py:147-178), `leaf` and `special` being the
contents of `leaf_keys` and `special_keys` so far.  `special_keys` is one dictionary, shared by all
levels. -/
def extractLoop (leaf special : Dict Py) : List (String × Py) → Dict Py × Dict Py
  | [] => (leaf, special)
  | (k, v) :: rest =>
    if k ∈ special.keys ∧ v.isNoneText = false then
      extractLoop leaf (special.set k v) rest
    else
      let r := extractNested k v leaf special
      extractLoop r.1 r.2 rest

/-- The two other branches of the loop (neps/utils/run_args.py:172-177). -/
def extractNested (k : String) (v : Py) (leaf special : Dict Py) : Dict Py × Dict Py :=
  match v with
  | .dict d =>
    let r := extractLoop [] special d
    (leaf.update r.1, r.2)
  | v => if v.isNull = false ∧ v.isNoneText = false then (leaf.set k v, special) else (leaf, special)

end

/-- `extract_leaf_keys(config)` (neps/utils/run_args.py:147-178). -/
def extractLeafKeys (config : List (String × Py)) : Dict Py × Dict Py :=
  extractLoop [] noSpecials config

end Verif.Args
