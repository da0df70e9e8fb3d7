import Mathlib.Algebra.Group.Defs
import Mathlib.Algebra.BigOperators.Group.List.Basic
import Mathlib.Data.Rat.Defs
import Mathlib.Algebra.Order.Ring.Rat
import Mathlib.Tactic.Ring
import Mathlib.Tactic.Linarith

/-!
# Python floats without rounding

`float` values as the code sees them: rational numbers, the two infinities and NaN, with the
comparison rules of IEEE 754 (every comparison with NaN is false, also `nan == nan`).
Simplification: no rounding, so addition is exact and associative.
-/

namespace Neps

/-- A Python `float` (no rounding). -/
inductive PyFloat
  | nan
  | ninf
  | num (q : Rat)
  | pinf
deriving DecidableEq, Repr

namespace PyFloat

/-- `x + y`. -/
def add : PyFloat → PyFloat → PyFloat
  | nan, _ | _, nan => nan
  | pinf, ninf | ninf, pinf => nan
  | pinf, _ | _, pinf => pinf
  | ninf, _ | _, ninf => ninf
  | num a, num b => num (a + b)

/-- `x <= y`. -/
def le : PyFloat → PyFloat → Bool
  | nan, _ | _, nan => false
  | ninf, _ => true
  | _, pinf => true
  | num a, num b => decide (a ≤ b)
  | _, _ => false

/-- `x < y`. -/
def lt : PyFloat → PyFloat → Bool
  | nan, _ | _, nan => false
  | _, ninf => false
  | pinf, _ => false
  | ninf, _ => true
  | _, pinf => true
  | num a, num b => decide (a < b)

/-- `x >= y`. -/
def ge (x y : PyFloat) : Bool := le y x

/-- `x == y` (IEEE: NaN is not equal to itself). -/
def eq : PyFloat → PyFloat → Bool
  | nan, _ | _, nan => false
  | a, b => decide (a = b)

/-- `np.isnan(x)`. -/
def isNan : PyFloat → Bool
  | nan => true
  | _ => false

instance : Zero PyFloat := ⟨num 0⟩
instance : Add PyFloat := ⟨add⟩

theorem add_def (x y : PyFloat) : x + y = add x y := rfl
theorem zero_def : (0 : PyFloat) = num 0 := rfl

theorem add_comm' (x y : PyFloat) : x + y = y + x := by
  cases x <;> cases y <;> simp [add_def, add, Rat.add_comm]

theorem add_assoc' (x y z : PyFloat) : x + y + z = x + (y + z) := by
  cases x <;> cases y <;> cases z <;> simp [add_def, add, Rat.add_assoc]

theorem zero_add' (x : PyFloat) : 0 + x = x := by
  cases x <;> simp [add_def, zero_def, add]

theorem add_zero' (x : PyFloat) : x + 0 = x := by
  cases x <;> simp [add_def, zero_def, add]

instance : AddCommMonoid PyFloat where
  add_assoc := add_assoc'
  zero_add := zero_add'
  add_zero := add_zero'
  add_comm := add_comm'
  nsmul := nsmulRec

@[simp] theorem num_add_num (a b : Rat) : num a + num b = num (a + b) := rfl

theorem ge_num (a b : Rat) : ge (num a) (num b) = decide (b ≤ a) := rfl

/-- Two numbers: `not (a >= b)` is `a < b`. -/
theorem not_ge_num {a b : Rat} : ge (num a) (num b) = false ↔ a < b := by
  simp [ge_num]

/-- The sum of a list of numbers is a number. -/
theorem sum_num (l : List Rat) : (l.map num).sum = num l.sum := by
  induction l with
  | nil => rfl
  | cons a l ih => simp [ih]

end PyFloat

end Neps
