import Verif.Args.RunYaml

/-!
# Model of search spaces described in YAML

`neps/search_spaces/yaml_search_space_utils.py` and `pipeline_space_from_yaml`
(neps/search_spaces/search_space.py:98-168).

The descriptions are Python dictionaries which the code changes while it reads them (`pop`, assigned
bounds), so every function of the model also returns the description it leaves behind.

Simplifications, for the whole file: floats are exact and finite; `parse` is Python's `float` on
texts, of which nothing is assumed; an exception is `none`, whatever its type, except where the code
distinguishes them.
-/

namespace Verif.Args

open Verif.Space

/-- Reading `\d+`: what comes after the digits, `none` if there is no digit.  Simplification: ASCII
digits only. -/
def digits1 (cs : List Char) : Option (List Char) :=
  if cs.takeWhile Char.isDigit = [] then none else some (cs.dropWhile Char.isDigit)

/-- Reading `-?`. -/
def minus : List Char → List Char
  | '-' :: cs => cs
  | cs => cs

/-- Reading `(\.\d+)?` before an exponent. -/
def fraction : List Char → Option (List Char)
  | '.' :: cs => digits1 cs
  | cs => some cs

/-- Reading `-?\d+$`; the dollar sign also matches before a newline at the end. -/
def exponent (cs : List Char) : Bool :=
  match digits1 (minus cs) with
  | some [] => true
  | some [c] => c == '\n'
  | _ => false

/-- `re.match(r"^-?\d+(\.\d+)?[eE]-?\d+$", ...)`
(neps/search_spaces/yaml_search_space_utils.py:49,58). -/
def matchesSci (cs : List Char) : Bool :=
  match (digits1 (minus cs)).bind fraction with
  | some (c :: rest) => (c == 'e' || c == 'E') && exponent rest
  | _ => false

/-- The flag of `convert_scientific_notation`
(neps/search_spaces/yaml_search_space_utils.py:53-59). -/
def isSci (s : String) : Bool := matchesSci (s.toList.filter fun c => c ≠ ' ')

/-- The outcome of `convert_scientific_notation`. -/
inductive Conv where
  | ok (x : ℚ) (flag : Bool)
  /-- `ValueError`: a text that is not a number -/
  | valueError
  /-- `TypeError`: a value that is neither a number nor a text -/
  | typeError

/-- `convert_scientific_notation(value, show_usage_flag=True)`
(neps/search_spaces/yaml_search_space_utils.py:20-64). -/
def convert (parse : String → Option ℚ) : Py → Conv
  | .bool b => .ok (if b then 1 else 0) false
  | .int n => .ok n false
  | .float x => .ok x false
  | .str s =>
    match parse s with
    | some x => .ok x (isSci s)
    | none => .valueError
  | _ => .typeError

/-- `isinstance(v, (str, int, float))`
(neps/search_spaces/yaml_search_space_utils.py:114,336). -/
def Py.isScalar (v : Py) : Bool := v.isStr || v.isInt || v.isFloat

/-- `deduce_param_type` (neps/search_spaces/yaml_search_space_utils.py:130-198). -/
def deduceParamType (parse : String → Option ℚ) (d : Dict Py) : Option (String × Dict Py) :=
  match d.get? "lower", d.get? "upper" with
  | some l, some u =>
    if l.isInt && u.isInt then some ("int", d)
    else if l.isFloat && u.isFloat then some ("float", d)
    else
      match convert parse l, convert parse u with
      | .ok x f, .ok y g =>
        if f || g then some ("float", (d.set "lower" (.float x)).set "upper" (.float y)) else none
      | _, _ => none
  | _, _ => if "choices" ∈ d.keys then some ("categorical", d) else none

/-- `deduce_type` (neps/search_spaces/yaml_search_space_utils.py:97-127). -/
def deduceType (parse : String → Option ℚ) : Py → Option (String × Py)
  | .dict d =>
    match Dict.get? d "type" with
    | some (.str t) => some (t.toLower, .dict (Dict.erase d "type"))
    | some _ => none
    | none => (deduceParamType parse d).map fun r => (r.1, .dict r.2)
  | v => if v.isScalar then some ("const", v) else none

/-- The bounds in `formatting_int` (neps/search_spaces/yaml_search_space_utils.py:221-242). -/
def formatIntBounds (parse : String → Option ℚ) (d : Dict Py) : Option (Dict Py) :=
  match d.get? "lower", d.get? "upper" with
  | some l, some u =>
    if l.isInt && u.isInt then some d
    else
      match convert parse l, convert parse u with
      | .ok x f, .ok y g =>
        if (f || g) && (x.isInt && y.isInt) then
          some ((d.set "lower" (.int x.num)).set "upper" (.int y.num))
        else none
      | _, _ => none
  | _, _ => none

/-- The default in `formatting_int` (neps/search_spaces/yaml_search_space_utils.py:243-256). -/
def formatIntDefault (parse : String → Option ℚ) (d : Dict Py) : Option (Dict Py) :=
  match d.get? "default" with
  | none => some d
  | some v =>
    if v.isInt then some d
    else
      match convert parse v with
      | .ok x _ => if x.isInt then some (d.set "default" (.int x.num)) else none
      | _ => none

/-- `formatting_int` (neps/search_spaces/yaml_search_space_utils.py:201-257). -/
def formatInt (parse : String → Option ℚ) (d : Dict Py) : Option (Dict Py) :=
  (formatIntBounds parse d).bind (formatIntDefault parse)

/-- The bounds in `formatting_float` (neps/search_spaces/yaml_search_space_utils.py:280-288). -/
def formatFloatBounds (parse : String → Option ℚ) (d : Dict Py) : Option (Dict Py) :=
  match d.get? "lower", d.get? "upper" with
  | some l, some u =>
    if l.isFloat && u.isFloat then some d
    else
      match convert parse l, convert parse u with
      | .ok x _, .ok y _ => some ((d.set "lower" (.float x)).set "upper" (.float y))
      | _, _ => none
  | _, _ => none

/-- The default in `formatting_float` (neps/search_spaces/yaml_search_space_utils.py:289-297). -/
def formatFloatDefault (parse : String → Option ℚ) (d : Dict Py) : Option (Dict Py) :=
  match d.get? "default" with
  | none => some d
  | some v =>
    if v.isFloat then some d
    else
      match convert parse v with
      | .ok x _ => some (d.set "default" (.float x))
      | _ => none

/-- `formatting_float` (neps/search_spaces/yaml_search_space_utils.py:260-298). -/
def formatFloat (parse : String → Option ℚ) (d : Dict Py) : Option (Dict Py) :=
  (formatFloatBounds parse d).bind (formatFloatDefault parse)

/-- A scalar, converted if it is a text in scientific notation; `none` if it is neither a number nor
a text (the body of the loop in `formatting_cat`,
neps/search_spaces/yaml_search_space_utils.py:321-331, and `formatting_const`, lines 371-385). -/
def convertSci (parse : String → Option ℚ) (v : Py) : Option Py :=
  match convert parse v with
  | .ok x flag => some (if flag then .float x else v)
  | .valueError => some v
  | .typeError => none

/-- The default in `formatting_cat` (neps/search_spaces/yaml_search_space_utils.py:333-351). -/
def formatCatDefault (parse : String → Option ℚ) (d : Dict Py) : Option (Dict Py) :=
  match d.get? "default" with
  | none => some d
  | some v =>
    if v.isScalar then (convertSci parse v).map fun w => d.set "default" w else none

/-- `formatting_cat` (neps/search_spaces/yaml_search_space_utils.py:301-353).  Simplification: an
unchanged default is assigned too. -/
def formatCat (parse : String → Option ℚ) (d : Dict Py) : Option (Dict Py) :=
  match d.get? "choices" with
  | some (.list l) =>
    (l.mapM (convertSci parse)).bind fun l' => formatCatDefault parse (d.set "choices" (.list l'))
  | _ => none

/-! ## The constructors, called with the description as keyword arguments -/

/-- The number `np.rint` or `float` sees (neps/search_spaces/hyperparameters/integer.py:64-65,
float.py:69-72). -/
def Py.number : Py → Option ℚ
  | .bool b => some (if b then 1 else 0)
  | .int n => some n
  | .float x => some x
  | _ => none

/-- A flag with default `False`; other types raise
(neps/search_spaces/hyperparameters/numerical.py:127-132). -/
def flagArg (d : Dict Py) (k : String) : Option Bool :=
  match d.get? k with
  | none => some false
  | some (.bool b) => some b
  | some _ => none

/-- `default_confidence`, "low" if it is not given. -/
def confidenceArg (d : Dict Py) : Option String :=
  match d.get? "default_confidence" with
  | none => some "low"
  | some (.str s) => some s
  | some _ => none

/-- `DEFAULT_CONFIDENCE_SCORES` of the numerical parameters
(neps/search_spaces/hyperparameters/float.py:41-45, integer.py:37-41, numerical.py:118-123). -/
noncomputable def numScore (s : String) : Option ℝ :=
  if s = "low" then some (1 / 2) else if s = "medium" then some (1 / 4)
  else if s = "high" then some (1 / 8) else none

/-- `DEFAULT_CONFIDENCE_SCORES` of categorical parameters
(neps/search_spaces/hyperparameters/categorical.py:49-53,102). -/
def catScore (s : String) : Option ℕ :=
  if s = "low" then some 2 else if s = "medium" then some 4 else if s = "high" then some 6 else none

/-- The keyword arguments of `IntegerParameter` and `FloatParameter`
(neps/search_spaces/hyperparameters/integer.py:43-52, float.py:47-56). -/
def numKeys : List String :=
  ["lower", "upper", "log", "is_fidelity", "default", "default_confidence"]

/-- The keyword arguments of `CategoricalParameter`
(neps/search_spaces/hyperparameters/categorical.py:55-61). -/
def catKeys : List String := ["choices", "default", "default_confidence"]

/-- An optional number. -/
def defaultArg (d : Dict Py) : Option (Option ℚ) :=
  match d.get? "default" with
  | none => some none
  | some .null => some none
  | some v => v.number.map some

/-- `IntegerParameter(**details)` and `FloatParameter(**details)`
(neps/search_spaces/search_space.py:145,148), where `make` is the constructor. -/
noncomputable def callNum {β : Type} (make : ℝ → ℝ → Bool → Bool → Option ℝ → ℝ → Option β)
    (d : Dict Py) : Option β :=
  if d.keys.all fun k => decide (k ∈ numKeys) then do
    let l ← (d.get? "lower").bind Py.number
    let u ← (d.get? "upper").bind Py.number
    let log ← flagArg d "log"
    let fid ← flagArg d "is_fidelity"
    let dflt ← defaultArg d
    let conf ← confidenceArg d
    let score ← numScore conf
    make l u log fid (dflt.map fun (x : ℚ) => (x : ℝ)) score
  else none

/-- A choice of a categorical parameter (neps/search_spaces/hyperparameters/categorical.py:78-82).
-/
noncomputable def Py.val : Py → Option Val
  | .bool b => some (.num (if b then 1 else 0))
  | .int n => some (.num n)
  | .float x => some (.num x)
  | .str s => some (.str s)
  | _ => none

/-- The default of a categorical parameter. -/
noncomputable def defaultVal (d : Dict Py) : Option (Option Val) :=
  match d.get? "default" with
  | none => some none
  | some .null => some none
  | some v => v.val.map some

/-- `CategoricalParameter(**details)` (neps/search_spaces/search_space.py:151). -/
noncomputable def callCat (d : Dict Py) : Option (CatParam Val) :=
  if d.keys.all fun k => decide (k ∈ catKeys) then
    match d.get? "choices" with
    | some (.list l) => do
      let cs ← l.mapM Py.val
      let dflt ← defaultVal d
      let conf ← confidenceArg d
      let score ← catScore conf
      CatParam.make cs dflt score
    | _ => none
  else none

/-- Reading the details of a parameter of the given type
(neps/search_spaces/search_space.py:143-164): the parameter and the description left behind.
`const` only works for scalars: a dictionary makes `float(details)` raise. -/
noncomputable def readTyped (parse : String → Option ℚ) (t : String) (v : Py) :
    Option (Hp × Py) :=
  if t = "int" ∨ t = "integer" then
    match v with
    | .dict d => do
      let d' ← formatInt parse d
      let p ← callNum IntParam.make d'
      return (.int p, .dict d')
    | _ => none
  else if t = "float" then
    match v with
    | .dict d => do
      let d' ← formatFloat parse d
      let p ← callNum FloatParam.make d'
      return (.float p, .dict d')
    | _ => none
  else if t = "cat" ∨ t = "categorical" then
    match v with
    | .dict d => do
      let d' ← formatCat parse d
      let p ← callCat d'
      return (.cat p, .dict d')
    | _ => none
  else if t = "const" then do
    let w ← convertSci parse v
    let x ← w.val
    return (.const ⟨x, x⟩, v)
  else none

/-- The body of the loop of `pipeline_space_from_yaml`
(neps/search_spaces/search_space.py:141-164). -/
noncomputable def readParam (parse : String → Option ℚ) (v : Py) : Option (Hp × Py) :=
  (deduceType parse v).bind fun r => readTyped parse r.1 r.2

/-- The loop of `pipeline_space_from_yaml` (neps/search_spaces/search_space.py:140-164).  The keys of
a dictionary are distinct, so every assignment adds an entry. -/
noncomputable def readAll (parse : String → Option ℚ) :
    List (String × Py) → Option (Dict Hp × List (String × Py))
  | [] => some ([], [])
  | (k, v) :: rest => do
    let r ← readParam parse v
    let rs ← readAll parse rest
    return ((k, r.1) :: rs.1, (k, r.2) :: rs.2)

/-- `pipeline_space_from_yaml` of a dictionary (neps/search_spaces/search_space.py:136-168): the space
and the dictionary left behind. -/
noncomputable def spaceFromYaml (parse : String → Option ℚ) (config : Dict Py) :
    Option (Dict Hp × Dict Py) :=
  match config with
  | [("pipeline_space", v)] =>
    match v with
    | .dict inner => (readAll parse inner).map fun r => (r.1, [("pipeline_space", .dict r.2)])
    | _ => none
  | _ => readAll parse config

end Verif.Args
