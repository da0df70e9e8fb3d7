import Verif.Status.Model
import Verif.Run.Spec

/-!
# Vocabulary for the status of a run
-/

namespace Neps.Status

/-- The loss of a trial that was evaluated successfully. -/
def lossOf (t : Trial) : Option PyFloat :=
  match t.report with
  | some r => if r.reportedAs = .success then r.loss else none
  | none => none

/-- The trial was evaluated and the evaluation failed. -/
def isFailed (t : Trial) : Bool :=
  match t.report with
  | some r => r.reportedAs != .success
  | none => false

/-- The trial was evaluated. -/
def isEvaluated (t : Trial) : Bool := t.report.isSome

/-- Trials by id. -/
def ById (trials : List (String × Trial)) : Prop :=
  (trials.map Prod.fst).Nodup ∧ ∀ p ∈ trials, p.2.id = p.1

/-- A successful trial has a loss, and the user's other results do not hide it. -/
def HasLoss (t : Trial) : Prop :=
  ∀ r, t.report = some r → r.reportedAs = .success →
    r.loss.isSome ∧ Dict.get r.extra "loss" = none

/-- The entry `info_dict` of the user's result, if there is one, is a dictionary. -/
def InfoIsDict (t : Trial) : Prop :=
  ∀ r, t.report = some r → r.reportedAs = .success →
    ∀ v, ("info_dict", v) ∈ r.extra → ∃ i, v = .dict i

/-- The part of a summary that speaks about the best trial is right: it names the first trial with
the smallest loss (NaN is not a loss one can have), or nothing if no loss is finite or `-inf`. -/
def BestIsRight (trials : List (String × Trial)) (s : Summary) : Prop :=
  (s.bestId = none ∧ s.bestConfig = none ∧ s.bestMetadata = none ∧ s.bestLoss = .pinf ∧
    ∀ p ∈ trials, ∀ x, lossOf p.2 = some x → x = .pinf ∨ x = .nan) ∨
  ∃ before k t after, trials = before ++ (k, t) :: after ∧
    s.bestId = some k ∧ s.bestConfig = some t.config ∧ s.bestMetadata = some t.metadata ∧
    lossOf t = some s.bestLoss ∧ s.bestLoss ≠ .pinf ∧ s.bestLoss ≠ .nan ∧
    (∀ p ∈ before, ∀ x, lossOf p.2 = some x → x = .nan ∨ PyFloat.lt s.bestLoss x = true) ∧
    (∀ p ∈ after, ∀ x, lossOf p.2 = some x → x = .nan ∨ PyFloat.le s.bestLoss x = true)

/-- What `get_all_trials()` returns in a world, for a listing order: nothing if some trial directory
cannot be read. -/
def allTrials (W : Run.World) (order : List String) : Option (List (String × Trial)) :=
  order.mapM (fun id => (W.stored id).map (fun t => (id, t)))

/-! ## The CSV files -/

/-- The losses of the rows are in ascending order, rows without a loss (or with NaN) at the end. -/
def SortedByLoss (rows : List Row) : Prop :=
  rows.Pairwise (fun a b =>
    (∀ y, b.loss = some y → y ≠ .nan → ∃ x, a.loss = some x ∧ PyFloat.le x y = true))

/-- A sorting algorithm for rows: it permutes them into ascending order. -/
def Sorts (sort : List Row → List Row) : Prop :=
  ∀ rows, (sort rows).Perm rows ∧ SortedByLoss (sort rows)

end Neps.Status
