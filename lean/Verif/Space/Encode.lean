import Verif.Space.Domain
import Mathlib.Data.String.Basic

/-!
# Model of the encoders

`neps/search_spaces/encoding.py`: the transformers of single hyperparameters and the
`ConfigEncoder` that puts the columns together.

Simplifications, for the whole file: tensors hold exact real numbers; dtype and device
arguments are the defaults; an exception is `none`.
-/

namespace Verif.Space

/-- A value of a hyperparameter: a number or a text (`CategoricalTypes`,
neps/search_spaces/hyperparameters/categorical.py:19).  Simplification: Python's `1`, `1.0` and
`True`, which are equal and hash alike, are the same number. -/
inductive Val where
  | num (x : ℝ)
  | str (s : String)

noncomputable instance : DecidableEq Val := Classical.decEq _

/-- Python list indexing, negative indices count from the end. -/
def pyGet {α : Type*} (l : List α) (i : ℤ) : Option α :=
  if 0 ≤ i then l[i.toNat]?
  else if -(l.length : ℤ) ≤ i then l[(l.length + i).toNat]?
  else none

/-- `{c: i for i, c in enumerate(choices)}` (neps/search_spaces/encoding.py:83): a later equal
choice overwrites an earlier one. -/
def lookupDict {α : Type*} [DecidableEq α] (choices : List α) (c : α) : Option ℕ :=
  ((choices.zipIdx.reverse).find? fun p => p.1 = c).map (·.2)

/-- `CategoricalToIntegerTransformer.encode` of one value
(neps/search_spaces/encoding.py:76-110): the dictionary is used for more than three hashable
choices, `list.index` otherwise; an unknown value raises. -/
def catEncode {α : Type*} [DecidableEq α] (hashable : Bool) (choices : List α) (c : α) :
    Option ℕ :=
  if choices.length > 3 ∧ hashable = true then lookupDict choices c
  else choices.findIdx? (fun d => d = c)

/-- `CategoricalToIntegerTransformer.decode` of one entry
(neps/search_spaces/encoding.py:113-114). -/
noncomputable def catDecode {α : Type*} (choices : List α) (x : ℝ) : Option α :=
  pyGet choices (rnd x)

/-- `CategoricalToUnitNorm.encode` of one value (neps/search_spaces/encoding.py:129-158): the
index is cast from the index domain to the unit interval split into as many bins as there are
choices. -/
noncomputable def unitCatEncode {α : Type*} [DecidableEq α] (hashable : Bool) (choices : List α)
    (c : α) : Option ℝ := do
  let dom ← Domain.floating 0 1 false (some (choices.length : ℤ)) true
  let frm ← Domain.indices choices.length true
  let i ← catEncode hashable choices c
  dom.cast (i : ℝ) frm

/-- `CategoricalToUnitNorm.decode` of one entry (neps/search_spaces/encoding.py:161-163). -/
noncomputable def unitCatDecode {α : Type*} (choices : List α) (x : ℝ) : Option α :=
  catDecode choices ((rnd (x * ((choices.length : ℝ) - 1)) : ℤ) : ℝ)

/-- `MinMaxNormalizer.encode` of one value without bins, the form used by the default encoder
(neps/search_spaces/encoding.py:177-204). -/
noncomputable def minMaxEncode (d : Domain) (x : ℝ) : Option ℝ := Domain.unitFloat.cast x d

/-- `MinMaxNormalizer.decode` of one entry (neps/search_spaces/encoding.py:207-209). -/
noncomputable def minMaxDecode (d : Domain) (x : ℝ) : Option ℝ := d.fromUnit x

/-- `TensorTransformer` (neps/search_spaces/encoding.py:29-64), applied to one value. -/
structure Transformer where
  encode : Val → Option ℝ
  decode : ℝ → Option Val

/-- `CategoricalToIntegerTransformer` (neps/search_spaces/encoding.py:67-114) as a transformer of
hyperparameter values. -/
noncomputable def catTransformer (choices : List Val) : Transformer where
  encode c := (catEncode true choices c).map (fun i => (i : ℝ))
  decode x := catDecode choices x

/-- `MinMaxNormalizer` (neps/search_spaces/encoding.py:168-209) as a transformer of
hyperparameter values; a text cannot be put into a tensor. -/
noncomputable def minMaxTransformer (d : Domain) : Transformer where
  encode v := match v with
    | .num x => minMaxEncode d x
    | .str _ => none
  decode x := (minMaxDecode d x).map .num

/-- A Python dictionary: keys in insertion order with their values. -/
abbrev Dict (β : Type*) := List (String × β)

namespace Dict

/-- `d[k]` -/
def get? {β : Type*} (d : Dict β) (k : String) : Option β := (d.find? fun p => p.1 = k).map (·.2)

/-- `d.keys()` -/
def keys {β : Type*} (d : Dict β) : List String := d.map (·.1)

/-- `d[k] = v`: replaces the value of an existing key, appends a new key. -/
def set {β : Type*} (d : Dict β) (k : String) (v : β) : Dict β :=
  if k ∈ d.keys then d.map (fun p => if p.1 = k then (k, v) else p) else d ++ [(k, v)]

/-- `d.update(e)` -/
def update {β : Type*} (d e : Dict β) : Dict β := e.foldl (fun acc p => acc.set p.1 p.2) d

/-- `sorted(d.items(), key=lambda t: t[0])` -/
def sorted {β : Type*} (d : Dict β) : Dict β := d.mergeSort (fun a b => decide (a.1 ≤ b.1))

end Dict

/-- `ConfigEncoder` (neps/search_spaces/encoding.py:212-264). -/
structure Encoder where
  transformers : Dict Transformer
  constants : Dict Val

namespace Encoder

/-- `ConfigEncoder.__post_init__` (neps/search_spaces/encoding.py:249-264): the transformers are
sorted by name. -/
def make (transformers : Dict Transformer) (constants : Dict Val) : Encoder :=
  ⟨transformers.sorted, constants⟩

/-- `index_of` (neps/search_spaces/encoding.py:261): the position of a name among the sorted
names. -/
def indexOf (e : Encoder) (name : String) : ℕ := e.transformers.keys.findIdx (fun k => k = name)

/-- `ConfigEncoder.encode`, the row of one configuration (neps/search_spaces/encoding.py:303-319):
every transformer writes its value into the cell `index_of` of the uninitialised buffer row
`init`; a missing key raises.  Simplification: the code fills the buffer column by column. -/
def encodeRow (e : Encoder) (conf : Dict Val) (init : List ℝ) : Option (List ℝ) :=
  e.transformers.foldlM (fun row p => do
    let v ← conf.get? p.1
    let x ← p.2.encode v
    return row.set (e.indexOf p.1) x) init

/-- `ConfigEncoder.encode` (neps/search_spaces/encoding.py:276-319), `init` being the contents of
the uninitialised buffer. -/
def encode (e : Encoder) (configs : List (Dict Val)) (init : List (List ℝ)) :
    Option (List (List ℝ)) :=
  (configs.zip init).mapM fun p => e.encodeRow p.1 p.2

/-- Column of one hyperparameter decoded (neps/search_spaces/encoding.py:333-336). -/
def decodeCol (e : Encoder) (rows : List (List ℝ)) (name : String) (t : Transformer) :
    Option (List Val) :=
  rows.mapM fun row => (row[e.indexOf name]?).bind t.decode

/-- `[dict(zip(keys, vals)) for vals in zip(*values.values())]`
(neps/search_spaces/encoding.py:341-345): as many rows as the shortest column, none at all
without columns. -/
def zipColumns (values : Dict (List Val)) : List (Dict Val) :=
  match values with
  | [] => []
  | (_, c) :: rest =>
    let n := rest.foldl (fun m p => min m p.2.length) c.length
    (List.range n).map fun i => values.filterMap fun p => (p.2[i]?).map fun v => (p.1, v)

/-- `ConfigEncoder.decode` (neps/search_spaces/encoding.py:321-345). -/
def decode (e : Encoder) (rows : List (List ℝ)) : Option (List (Dict Val)) := do
  let values ← e.transformers.mapM fun p => do
    let col ← e.decodeCol rows p.1 p.2
    return (p.1, col)
  let constants : Dict (List Val) :=
    e.constants.map fun p => (p.1, List.replicate rows.length p.2)
  return zipColumns (Dict.update values constants)

end Encoder

/-- The hyperparameters the default encoder distinguishes (neps/search_spaces/encoding.py:397-406):
float and integer parameters, categorical parameters, and everything else. -/
inductive HP where
  | numerical (d : Domain)
  | categorical (choices : List Val)
  | other

/-- The transformer chosen for a hyperparameter (neps/search_spaces/encoding.py:393-406). -/
noncomputable def defaultTransformer (custom : Dict Transformer) (name : String) (hp : HP) :
    Option Transformer :=
  match custom.get? name with
  | some t => some t
  | none =>
    match hp with
    | .numerical d => some (minMaxTransformer d)
    | .categorical choices =>
        -- `assert len(self.choices) > 0` (neps/search_spaces/encoding.py:77)
        if choices.length > 0 then some (catTransformer choices) else none
    | .other => none

/-- `ConfigEncoder.default` (neps/search_spaces/encoding.py:347-408): overlapping names are
rejected (`any(overlap)` does not see an overlap in the empty name), hyperparameters without a
transformer too. -/
noncomputable def Encoder.default (parameters : Dict HP) (constants : Dict Val)
    (custom : Dict Transformer) : Option Encoder :=
  if parameters.keys.any (fun k => k ∈ constants.keys ∧ k ≠ "") then none
  else if custom.keys.any (fun k => k ∈ constants.keys ∧ k ≠ "") then none
  else do
    let ts ← (parameters.sorted).mapM fun p => do
      let t ← defaultTransformer custom p.1 p.2
      return (p.1, t)
    return Encoder.make ts constants

end Verif.Space
