import Verif.MF.Occupancy
import Mathlib.Data.List.Sort

/-! # A concrete bracket, sorting function and history for the non-vacuity examples -/

namespace Neps.MF

/-- Decidable form of `sortLe`. -/
def sortLeB (a b : PyFloat) : Bool := b.isNan || (!a.isNan && PyFloat.le a b)

theorem sortLeB_iff (a b : PyFloat) : sortLeB a b = true ↔ sortLe a b := by
  cases a <;> cases b <;> simp [sortLeB, sortLe, PyFloat.isNan]

theorem sortLe_total (a b : PyFloat) : sortLe a b ∨ sortLe b a := by
  cases a <;> cases b <;> simp [sortLe, PyFloat.le]
  exact le_total _ _

theorem sortLe_trans {a b c : PyFloat} (h1 : sortLe a b) (h2 : sortLe b c) : sortLe a c := by
  cases a <;> cases b <;> cases c <;> simp_all [sortLe, PyFloat.le]
  exact le_trans h1 h2

/-- Order of positions by the entries there. -/
def posLe (xs : List PyFloat) (i j : Nat) : Prop :=
  sortLeB (xs.getD i .nan) (xs.getD j .nan) = true

instance (xs : List PyFloat) : DecidableRel (posLe xs) := fun i j => by
  unfold posLe; infer_instance

/-- A sorting function: insertion sort of the positions. -/
def argsort : Argsort := fun xs => (List.range xs.length).insertionSort (posLe xs)

theorem argsort_sorts : Sorts argsort := by
  refine ⟨fun xs => List.perm_insertionSort _ _, fun xs => ?_⟩
  have : Std.Total (posLe xs) := ⟨fun i j => by
    simp only [posLe, sortLeB_iff]; exact sortLe_total _ _⟩
  have : IsTrans Nat (posLe xs) := ⟨fun i j k h1 h2 => by
    simp only [posLe, sortLeB_iff] at h1 h2 ⊢; exact sortLe_trans h1 h2⟩
  refine (List.pairwise_insertionSort (posLe xs) (List.range xs.length)).imp ?_
  intro i j h a b ha hb
  simp only [posLe, sortLeB_iff] at h
  rw [List.getD_eq_getElem?_getD, List.getD_eq_getElem?_getD, ha, hb] at h
  exact h

/-- Two brackets: `eta = 2`, rungs 0 and 1 with budgets 1 and 2. -/
def twoRungs : Nat → Bracket Nat
  | 0 => ⟨0, 1, 2, fun r => if r = 0 then 2 else 1, fun r => r + 1⟩
  | _ => ⟨1, 1, 2, fun _ => 2, fun r => r + 1⟩

theorem twoRungs_good : ∀ i, i < 2 → Good (twoRungs i) := by
  intro i _
  cases i with
  | zero =>
    refine ⟨by decide, by decide, ?_, by decide⟩
    intro r h1 h2
    have : r = 0 := by simp only [twoRungs] at h2; omega
    subst this; rfl
  | succ i =>
    refine ⟨Nat.le_refl _, Nat.le_refl _, ?_, by simp [twoRungs]⟩
    intro r h1 h2
    simp only [twoRungs] at h1 h2
    omega

/-- Two configurations at rung 0, both finished; the second one is better. -/
def demo : List (Rec Nat Nat) :=
  [⟨⟨0, 0⟩, 10, 1, .loss (.num 5)⟩, ⟨⟨1, 0⟩, 11, 1, .loss (.num 3)⟩]

set_option maxRecDepth 4000 in
example : hbAsk {} twoRungs 2 argsort demo 12 = .ok ⟨⟨1, 1⟩, 11, 2, some ⟨1, 0⟩⟩ := by decide +kernel

end Neps.MF
