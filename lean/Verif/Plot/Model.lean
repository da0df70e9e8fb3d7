import Verif.Opt.Ids
import Mathlib.Data.List.Sort
import Mathlib.Data.Rat.Defs
import Mathlib.Algebra.Order.Ring.Rat
import Mathlib.Algebra.Field.Rat
import Mathlib.Algebra.BigOperators.Group.List.Basic

/-!
# `neps.plot`

Model of the incumbent trajectory that `neps.plot` draws: reading the results of every seed and
interpolating them, `neps/plot/read_results.py` and `neps/plot/plotting.py`.
Simplification: numbers are rational, without rounding, infinities and NaN.
-/

namespace Neps.Plot

open Neps.Ids

/-- The result of an evaluated trial as `neps.status` returns it,
`neps/state/trial.py:81-94`: the text `"error"` for a trial that crashed or failed, otherwise the
loss and the numbers of the `info_dict`. Simplification: the cost and the learning curve, which the
plot does not read, are left out. -/
inductive Outcome where
  | error
  | success (loss : ℚ) (info : List (String × ℚ))
  deriving DecidableEq, Repr

/-- An evaluated trial in the first dictionary of `neps.status`, `neps/status/status.py:36-63`: its
id, its result, and from the metadata the times (in seconds) and the id of the trial it
continues. -/
structure Entry where
  id : List Char
  outcome : Outcome
  timeSampled : ℚ
  timeEnd : ℚ
  previous : Option (List Char)
  deriving DecidableEq, Repr

/-- The keys of `asdict(trial.metadata)`, `neps/state/trial.py:45-60`. -/
def metadataKeys : List String :=
  ["id", "location", "previous_trial_id", "previous_trial_location", "sampling_worker_id",
    "time_sampled", "evaluating_worker_id", "evaluation_duration", "time_submitted",
    "time_started", "time_end"]

/-- `sorted(sorted(stats.items()), key=lambda x: len(x[0]))`, `neps/plot/read_results.py:27`. The
ids are distinct, so pairs are compared by their ids, character by character; `sorted` is stable,
and so is insertion sort. -/
def sortStats (stats : List Entry) : List Entry :=
  (stats.insertionSort (fun a b => a.id ≤ b.id)).insertionSort
    (fun a b => a.id.length ≤ b.id.length)

/-- `result["loss"]`, `none` for the `TypeError` of indexing the text `"error"` by a text,
`neps/plot/read_results.py:67`. -/
def getLoss (e : Entry) : Option ℚ :=
  match e.outcome with
  | .error => none
  | .success l _ => some l

/-- `result["info_dict"][key]`, `none` for `TypeError` and `KeyError`,
`neps/plot/read_results.py:36,45`. -/
def getInfo (key : String) (e : Entry) : Option ℚ :=
  match e.outcome with
  | .error => none
  | .success _ info => info.lookup key

/-- `get_cost`, `neps/plot/read_results.py:40-47`. -/
def getCost (key : Option String) (e : Entry) : Option ℚ :=
  match key with
  | none => some 1
  | some k => getInfo k e

/-- The cost of one trial in the loop, `neps/plot/read_results.py:53-63`. -/
def entryCost (stats : List Entry) (key : Option String) (cont : Bool) (nWorkers : ℕ) (start : ℚ)
    (e : Entry) : Option ℚ :=
  match getCost key e with
  | none => none
  | some c =>
    if cont then
      if nWorkers = 1 then
        if metadataKeys.contains "previous_config_id" then
          match stats.find? (fun p => e.previous = some p.id) with
          | none => none
          | some p => (getCost key p).map (fun d => c - d)
        else some c
      else some (e.timeEnd - start)
    else some c

/-- `np.minimum.accumulate`. -/
def minAcc : List ℚ → List ℚ
  | [] => []
  | a :: l => a :: (minAcc l).map (min a)

/-- `np.cumsum`. -/
def cumsum : List ℚ → List ℚ
  | [] => []
  | a :: l => a :: (cumsum l).map (a + ·)

/-- `stats[min(stats.keys())].metadata["time_sampled"]`, `neps/plot/read_results.py:38`, `none` for
the `ValueError` of `min` of nothing. -/
def globalStart (stats : List Entry) : Option ℚ :=
  (stats.insertionSort (fun a b => a.id ≤ b.id)).head?.map Entry.timeSampled

/-- The largest number of a non-empty list. -/
def maxOf : List ℚ → Option ℚ
  | [] => none
  | a :: l => some (l.foldl max a)

/-- `max_cost`, `neps/plot/read_results.py:31-36`. -/
def maxCost (stats : List Entry) (key : Option String) : Option ℚ :=
  if key = some "fidelity" then
    match stats.mapM (getInfo "fidelity") with
    | none => none
    | some l => maxOf l
  else some (-1)

/-- What `process_seed` returns: the incumbents, the costs and the largest cost. -/
structure Seed where
  incumbents : List ℚ
  costs : List ℚ
  maxCost : ℚ
  deriving DecidableEq, Repr

/-- `process_seed`, `neps/plot/read_results.py:13-70`, on the evaluated trials of the seed; `none`
when it raises. -/
def processSeed (stats : List Entry) (key : Option String) (cont : Bool) (nWorkers : ℕ) :
    Option Seed :=
  let stats := sortStats stats
  match maxCost stats key, globalStart stats with
  | some m, some start =>
    match stats.mapM (entryCost stats key cont nWorkers start), stats.mapM getLoss with
    | some costs, some losses => some ⟨minAcc losses, costs, m⟩
    | _, _ => none
  | _, _ => none

/-- The column of a seed, `pd.Series(incumbents[i], index=np.cumsum(costs[i]))`,
`neps/plot/plotting.py:133`. -/
def column (s : Seed) : List (ℚ × ℚ) := (cumsum s.costs).zip s.incumbents

/-- The index of `pd.DataFrame.from_dict(df_dict)`: the sorted union of the indexes of the columns,
`neps/plot/plotting.py:135`. -/
def unionIndex (cols : List (List (ℚ × ℚ))) : List ℚ :=
  ((cols.flatMap (fun c => c.map Prod.fst)).dedup).insertionSort (· ≤ ·)

/-- A column on the common index: missing where the seed has no point. -/
def align (idx : List ℚ) (c : List (ℚ × ℚ)) : List (Option ℚ) := idx.map (fun x => c.lookup x)

/-- `fillna(method="backfill")`: a missing value becomes the next one present. -/
def backfill : List (Option ℚ) → List (Option ℚ)
  | [] => []
  | some a :: l => some a :: backfill l
  | none :: l => ((backfill l).head?.join) :: backfill l

/-- `fillna(method="ffill")`: a missing value becomes the previous one present. -/
def ffill : Option ℚ → List (Option ℚ) → List (Option ℚ)
  | _, [] => []
  | _, some a :: l => some a :: ffill (some a) l
  | p, none :: l => p :: ffill p l

/-- One interpolated column, `neps/plot/plotting.py:151`. -/
def filled (idx : List ℚ) (c : List (ℚ × ℚ)) : List (Option ℚ) :=
  ffill none (backfill (align idx c))

/-- `df.mean(axis=1)` of one row, `neps/plot/plotting.py:90`: missing values do not count. -/
def mean (row : List (Option ℚ)) : ℚ := row.reduceOption.sum / row.reduceOption.length

/-- `_interpolate_time` and the mean of `_plot_incumbent`, `neps/plot/plotting.py:86-90,119-155`:
the points of the curve from left to right, `none` when pandas or numpy raises. `ragged` says
whether `np.array` accepts lists of different lengths (numpy before 1.24, lines 125-128).
Simplifications: no `x_range`; the last row, which `_df_to_x_range` adds at infinity and which
repeats the last value, is left out; a seed whose index has repeated values (a trial of cost zero)
is an error here, in pandas only if the seeds have different indexes. -/
def interpolate (ragged : Bool) (scale : Option ℚ) (seeds : List Seed) : Option (List (ℚ × ℚ)) :=
  let cols := seeds.map column
  if ¬ ragged ∧ ∃ s ∈ seeds, ∃ t ∈ seeds, s.incumbents.length ≠ t.incumbents.length then none
  else if ∃ c ∈ cols, ¬ (c.map Prod.fst).Nodup then none
  else
    let idx := unionIndex cols
    let columns := cols.map (filled idx)
    let ys := (List.range idx.length).map (fun i => mean (columns.map (fun c => (c[i]?).join)))
    let xs := match scale with
      | none => idx
      | some m => idx.map (· / m)
    some (xs.zip ys)

/-- The curve that `neps.plot` draws for one benchmark and one algorithm,
`neps/plot/plot.py:98-133`: the trials of every seed are read, `max_cost` scales the axis if the
key is `"fidelity"`. -/
def curve (ragged : Bool) (seeds : List (List Entry)) (key : Option String) (cont : Bool)
    (nWorkers : ℕ) : Option (List (ℚ × ℚ)) :=
  match seeds.mapM (fun s => processSeed s key cont nWorkers) with
  | none => none
  | some ss =>
    if key = some "fidelity" then
      match maxOf (ss.map Seed.maxCost) with
      | none => none
      | some m => interpolate ragged (some m) ss
    else interpolate ragged none ss

end Neps.Plot
