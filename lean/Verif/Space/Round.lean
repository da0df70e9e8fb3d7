import Mathlib.Algebra.Order.Archimedean.Real.Basic
import Mathlib.Algebra.Order.Floor.Ring
import Mathlib.Algebra.Ring.Parity
import Mathlib.Tactic.Linarith
import Mathlib.Tactic.SplitIfs
import Mathlib.Tactic.Push

/-!
# Rounding half to even

`torch.round`, `np.rint` and Python's `round` all round to the nearest integer and send ties
to the even neighbour.  The model of the search space uses one function for the three.
-/

namespace Verif.Space

/-- Round half to even: the function computed by `torch.round`
(neps/search_spaces/domain.py:280,312,327), `np.rint`
(neps/search_spaces/hyperparameters/integer.py:64-65,145,154,162) and Python's `round`
(neps/search_spaces/domain.py:194-195).  Simplification: exact real numbers instead of
floating point numbers. -/
noncomputable def rnd (x : ℝ) : ℤ :=
  if x - ⌊x⌋ < 1 / 2 then ⌊x⌋
  else if 1 / 2 < x - ⌊x⌋ then ⌊x⌋ + 1
  else if Even ⌊x⌋ then ⌊x⌋ else ⌊x⌋ + 1

theorem rnd_floor_or (x : ℝ) : rnd x = ⌊x⌋ ∨ rnd x = ⌊x⌋ + 1 := by
  unfold rnd; split_ifs <;> simp

@[simp] theorem rnd_intCast (n : ℤ) : rnd (n : ℝ) = n := by
  unfold rnd; simp

@[simp] theorem rnd_natCast (n : ℕ) : rnd (n : ℝ) = n := by
  have := rnd_intCast (n : ℤ); simpa using this

/-- The distance of a number to its rounding is at most one half. -/
theorem rnd_near (x : ℝ) : |(rnd x : ℝ) - x| ≤ 1 / 2 := by
  have h1 := Int.floor_le x
  have h2 := Int.lt_floor_add_one x
  rw [abs_le]
  unfold rnd
  split_ifs <;> constructor <;> push_cast <;> linarith

theorem rnd_mono {x y : ℝ} (h : x ≤ y) : rnd x ≤ rnd y := by
  have hf := Int.floor_le_floor h
  rcases lt_or_eq_of_le hf with hlt | heq
  · rcases rnd_floor_or x with hx | hx <;> rcases rnd_floor_or y with hy | hy <;> omega
  · unfold rnd
    rw [heq]
    split_ifs <;> first | omega | (exfalso; linarith)

theorem le_rnd_of_le {n : ℤ} {x : ℝ} (h : (n : ℝ) ≤ x) : n ≤ rnd x := by
  have := rnd_mono h; simpa using this

theorem rnd_le_of_le {n : ℤ} {x : ℝ} (h : x ≤ (n : ℝ)) : rnd x ≤ n := by
  have := rnd_mono h; simpa using this

/-- A number closer than one half to an integer rounds to that integer. -/
theorem rnd_eq_of_near {n : ℤ} {x : ℝ} (h1 : (n : ℝ) - 1 / 2 < x) (h2 : x < (n : ℝ) + 1 / 2) :
    rnd x = n := by
  have h := rnd_near x
  rw [abs_le] at h
  have a : (rnd x : ℝ) < n + 1 := by linarith [h.2]
  have b : (n : ℝ) - 1 < rnd x := by linarith [h.1]
  have a' : rnd x < n + 1 := by exact_mod_cast a
  have b' : n - 1 < rnd x := by exact_mod_cast b
  omega

end Verif.Space
