import Verif.Plot.Model
import Mathlib.Order.Lattice

/-!
# What an incumbent trajectory should show

Independent of how `neps.plot` sorts, accumulates and interpolates.
-/

namespace Neps.Plot

open Neps.Ids

/-- The number that the id of a trial stands for. -/
def num (e : Entry) : ℕ := (Ids.pyInt e.id).getD 0

/-- The trials of a black-box run: at least one is evaluated, the ids are different numbers in
decimal notation, and every evaluation succeeded. -/
structure Complete (stats : List Entry) : Prop where
  nonempty : stats ≠ []
  numbered : ∀ e ∈ stats, ∃ n, e.id = natStr n
  distinct : (stats.map Entry.id).Nodup
  success : ∀ e ∈ stats, e.outcome ≠ .error

/-- The loss of a trial that succeeded. -/
def lossOf (e : Entry) : ℚ :=
  match e.outcome with
  | .error => 0
  | .success l _ => l

/-- The cost of a trial on the axis: 1 when evaluations are counted, else the number reported
under the key. -/
def costOf (key : Option String) (e : Entry) : ℚ :=
  match key, e.outcome with
  | none, _ => 1
  | some k, .success _ info => (info.lookup k).getD 0
  | some _, .error => 0

/-- Every trial reports a positive number under the key, if there is one. -/
def Costed (key : Option String) (stats : List Entry) : Prop :=
  ∀ k, key = some k → ∀ e ∈ stats, ∃ l info c, e.outcome = .success l info ∧
    info.lookup k = some c ∧ 0 < c

/-- What has been spent when the trial is finished: the costs of all trials up to its number. -/
def spent (key : Option String) (stats : List Entry) (e : Entry) : ℚ :=
  ((stats.filter (fun u => num u ≤ num e)).map (costOf key)).sum

/-- `b` is the best loss found within a budget of `x`. -/
def BestWithin (key : Option String) (stats : List Entry) (x b : ℚ) : Prop :=
  (∃ e ∈ stats, spent key stats e ≤ x ∧ lossOf e = b) ∧
    ∀ e ∈ stats, spent key stats e ≤ x → b ≤ lossOf e

/-- `b` is the best loss of the trials up to the first one that is finished at `x` or later, or of
all trials if all are finished before `x`. -/
def BestUntilReached (key : Option String) (stats : List Entry) (x b : ℚ) : Prop :=
  ∃ e ∈ stats, (x ≤ spent key stats e ∨ ∀ u ∈ stats, num u ≤ num e) ∧
    (∀ u ∈ stats, num u < num e → spent key stats u < x) ∧
    (∃ u ∈ stats, num u ≤ num e ∧ lossOf u = b) ∧
    ∀ u ∈ stats, num u ≤ num e → b ≤ lossOf u

/-- The points of a curve: one for every value that the budget spent takes in some seed, from left
to right. -/
def AxisOf (key : Option String) (seeds : List (List Entry)) (xs : List ℚ) : Prop :=
  xs.Pairwise (· < ·) ∧ ∀ x, x ∈ xs ↔ ∃ s ∈ seeds, ∃ e ∈ s, x = spent key s e

/-- The points of a curve at which every seed contributes a value `shows seed x` and the mean is
drawn. -/
def MeansOf (shows : List Entry → ℚ → ℚ → Prop) (seeds : List (List Entry)) (pts : List (ℚ × ℚ)) :
    Prop :=
  ∀ p ∈ pts, ∃ bs : List ℚ, List.Forall₂ (fun s b => shows s p.1 b) seeds bs ∧
    p.2 = bs.sum / bs.length

end Neps.Plot
