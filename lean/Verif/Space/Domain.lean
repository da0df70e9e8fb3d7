import Verif.Space.Round
import Mathlib.Analysis.SpecialFunctions.Log.Basic

/-!
# Model of `Domain`

`neps/search_spaces/domain.py`: ranges of values and the conversions between them.

Simplifications, for the whole file: tensors are single exact real numbers (every operation of
the code is applied elementwise), floating point rounding is not modelled, and a value that is
not a finite number (division by zero, logarithm of a non-positive number) is `none`.
-/

namespace Verif.Space

/-- `Domain` (neps/search_spaces/domain.py:58-104), the fields given to the constructor plus
`is_int`, which the code derives from the Python type of the bounds. -/
structure Domain where
  lower : ℝ
  upper : ℝ
  isInt : Bool
  round : Bool
  logBounds : Option (ℝ × ℝ)
  bins : Option ℤ
  isCategorical : Bool

/-- Division of tensors (neps/search_spaces/domain.py:243,247,268): dividing by zero does not
give a number. -/
noncomputable def fdiv (a b : ℝ) : Option ℝ := if b = 0 then none else some (a / b)

/-- `torch.log` / `math.log` (neps/search_spaces/domain.py:165,196,238): only positive numbers
have a logarithm. -/
noncomputable def flog (x : ℝ) : Option ℝ := if 0 < x then some (Real.log x) else none

namespace Domain

/-- `is_unit_float` (neps/search_spaces/domain.py:110-114). -/
def isUnitFloat (d : Domain) : Prop :=
  d.lower = 0 ∧ d.upper = 1 ∧ d.isInt = true ∧ d.round = false

noncomputable instance (d : Domain) : Decidable d.isUnitFloat := by
  unfold isUnitFloat; infer_instance

/-- `cardinality` (neps/search_spaces/domain.py:117-129): the number of bins when it is given
and not zero, the number of integers for rounded domains, otherwise not finite. -/
noncomputable def card (d : Domain) : Option ℤ :=
  match d.bins with
  | some b => if b = 0 then byRound d else some b
  | none => byRound d
where
  byRound (d : Domain) : Option ℤ :=
    if d.round then some ⌊d.upper - d.lower + 1⌋ else none

/-- The constructor and `__post_init__` (neps/search_spaces/domain.py:106-138): a categorical
domain must have a finite cardinality.  Simplification: the unused midpoint (line 134) is not
computed. -/
noncomputable def make (d : Domain) : Option Domain :=
  if d.card = none ∧ d.isCategorical = true then none else some d

/-- `log_bounds=(math.log(lower), math.log(upper)) if log else None`
(neps/search_spaces/domain.py:165,196); the outer `none` is the `ValueError` of `math.log`. -/
noncomputable def mkLogBounds (lower upper : ℝ) (log : Bool) : Option (Option (ℝ × ℝ)) :=
  if log then
    match flog lower, flog upper with
    | some a, some b => some (some (a, b))
    | _, _ => none
  else some none

/-- `Domain.floating` (neps/search_spaces/domain.py:140-169). -/
noncomputable def floating (lower upper : ℝ) (log : Bool := false) (bins : Option ℤ := none)
    (cat : Bool := false) : Option Domain := do
  let lb ← mkLogBounds lower upper log
  make ⟨lower, upper, false, false, lb, bins, cat⟩

/-- `Domain.integer` (neps/search_spaces/domain.py:171-200); the log bounds are those of the
bounds before rounding. -/
noncomputable def integer (lower upper : ℝ) (log : Bool := false) (bins : Option ℤ := none)
    (cat : Bool := false) : Option Domain := do
  let lb ← mkLogBounds lower upper log
  make ⟨(rnd lower : ℝ), (rnd upper : ℝ), true, true, lb, bins, cat⟩

/-- `Domain.indices` (neps/search_spaces/domain.py:202-216). -/
noncomputable def indices (n : ℕ) (cat : Bool := false) : Option Domain :=
  integer 0 ((n : ℝ) - 1) false none cat

/-- `UNIT_FLOAT_DOMAIN` (neps/search_spaces/domain.py:439). -/
noncomputable def unitFloat : Domain := ⟨0, 1, false, false, none, none, false⟩

/-- The quantization of `to_unit` and `from_unit` (neps/search_spaces/domain.py:245-247,
266-268): `floor(x * q).clip(0, q - 1) / (q - 1)`. -/
noncomputable def quantize (q : Option ℤ) (x : ℝ) : Option ℝ :=
  match q with
  | none => some x
  | some q => fdiv ((min (max ⌊x * q⌋ 0) (q - 1) : ℤ) : ℝ) (((q - 1 : ℤ)) : ℝ)

/-- `Domain.to_unit` (neps/search_spaces/domain.py:218-249). -/
noncomputable def toUnit (d : Domain) (x : ℝ) : Option ℝ :=
  if d.isUnitFloat ∧ d.card = none then some x
  else
    match d.logBounds with
    | some (lo, hi) => do
        let lx ← flog x
        let y ← fdiv (lx - lo) (hi - lo)
        quantize d.card y
    | none => do
        let y ← fdiv (x - d.lower) (d.upper - d.lower)
        quantize d.card y

/-- Conversion to an integer dtype truncates towards zero (`x.type(dtype)` with the preferred
dtype of the domain, neps/search_spaces/domain.py:131,282,313,328). -/
noncomputable def asDtype (isInt : Bool) (x : ℝ) : ℝ :=
  if isInt then (if 0 ≤ x then (⌊x⌋ : ℝ) else (⌈x⌉ : ℝ)) else x

/-- `if self.round: x = torch.round(x)` (neps/search_spaces/domain.py:279-280,311-312,326-327). -/
noncomputable def roundIf (r : Bool) (x : ℝ) : ℝ := if r then (rnd x : ℝ) else x

/-- `Domain.from_unit` (neps/search_spaces/domain.py:251-282). -/
noncomputable def fromUnit (d : Domain) (x : ℝ) : Option ℝ :=
  if d.isUnitFloat then some (asDtype d.isInt x)
  else do
    let y ← quantize d.card x
    let z := match d.logBounds with
      | some (lo, hi) => Real.exp (y * (hi - lo) + lo)
      | none => y * (d.upper - d.lower) + d.lower
    return asDtype d.isInt (roundIf d.round z)

/-- `Domain.cast` (neps/search_spaces/domain.py:284-332) with the default dtype: the shortcuts
are taken in the order of the code. -/
noncomputable def cast (self : Domain) (x : ℝ) (frm : Domain) : Option ℝ :=
  -- Shortcut 1 (same domain)
  if (self.lower = frm.lower ∧ self.upper = frm.upper) ∧ self.logBounds = frm.logBounds ∧
      self.card = frm.card then
    some (asDtype self.isInt (roundIf self.round x))
  -- Shortcut 2 (from normalized)
  else if frm.isUnitFloat then self.fromUnit x
  -- Shortcut 3 (log lift)
  else if frm.logBounds = some (self.lower, self.upper) ∧ self.card = none then
    some (asDtype self.isInt (roundIf self.round (Real.exp x)))
  -- Otherwise, through the unit interval
  else do
    let u ← frm.toUnit x
    self.fromUnit u

/-- One row of `Domain.translate` with lists of domains (neps/search_spaces/domain.py:377-398):
the columns are cast one by one; lists of the wrong length raise (`none`).  Simplification: the
result is stored in exact numbers, not in the dtype of the input tensor. -/
noncomputable def translate (x : List ℝ) (frm tgt : List Domain) : Option (List ℝ) :=
  if frm.length ≠ x.length then none
  else if tgt.length ≠ x.length then none
  else ((x.zip (frm.zip tgt)).mapM fun (v, f, t) => t.cast v f)

end Domain

end Verif.Space
