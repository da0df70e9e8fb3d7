import Verif.Cli.Model
import Mathlib.Data.Rat.Defs
import Mathlib.Algebra.Order.Ring.Rat

/-!
# Model of the plot of learning curves, `neps/plot/plot3D.py`

Which points and lines `Plotter3D.plot3D` draws for the rows of `summary_csv/config_data.csv`.

Simplifications: numbers are rational, `none` is NaN (a trial without result); a line is the list of
its corners (the segments of `neps/plot/plot3D.py:160-161,177-178` connect each corner with the next);
sizes, labels and the view are left out.
-/

namespace Neps.Plot

open Neps.Ids

/-- A row of the file: the id of the trial, its fidelity, its loss, and the times of its evaluation. -/
structure CsvRow where
  id : List Char
  fidelity : ℚ
  loss : Option ℚ
  started : Option ℚ
  ended : Option ℚ
deriving DecidableEq, Repr

/-- A row of the prepared table: `configID`, `epochID`, and the row of the file. -/
structure CurveRow where
  config : ℤ
  epoch : ℤ
  row : CsvRow
deriving DecidableEq, Repr

/-- `index.split("_")` and `astype(int)`, `neps/plot/plot3D.py:84-87`: two whole numbers. With another
number of parts the assignment to two columns raises, and so does a text that is no number. -/
def curveRow (r : CsvRow) : Option CurveRow :=
  match split '_' r.id with
  | [c, e] =>
    match Cli.pyInt c with
    | none => none
    | some c =>
      match Cli.pyInt e with
      | none => none
      | some e => some ⟨c, e, r⟩
  | _ => none

/-- `if df.epochID.min() == 0: df.epochID += 1`, `neps/plot/plot3D.py:88-89`. -/
def shiftEpochs (l : List CurveRow) : List CurveRow :=
  if (l.map (·.epoch)).min? = some 0 then l.map fun r => { r with epoch := r.epoch + 1 } else l

/-- Comparison of times; NaN comes last. -/
def timeLe : Option ℚ → Option ℚ → Bool
  | _, none => true
  | none, some _ => false
  | some a, some b => decide (a ≤ b)

/-- Comparison of rows by start and then by end, `neps/plot/plot3D.py:91-93`. -/
def rowLe (a b : CurveRow) : Bool :=
  if timeLe a.row.started b.row.started && timeLe b.row.started a.row.started then
    timeLe a.row.ended b.row.ended
  else timeLe a.row.started b.row.started

/-- `prep_df`, `neps/plot/plot3D.py:76-93`; `none` is an exception. The new index, the place in the
result, is the colour of a row. An empty table has no columns to split into. -/
def prepRows (rows : List CsvRow) : Option (List CurveRow) :=
  if rows = [] then none
  else (rows.mapM curveRow).map fun l => (shiftEpochs l).mergeSort rowLe

/-- What is drawn for a configuration: the places in the 2D and in the 3D plot, with the colours. -/
structure Drawn where
  /-- a line (and not a point) -/
  line : Bool
  /-- `(x, z)` -/
  flat : List (ℚ × Option ℚ)
  /-- `(x, y, z)` -/
  deep : List (ℚ × ℕ × Option ℚ)
  colours : List ℕ
deriving DecidableEq, Repr

/-- The configurations in the order of their first row: `groupby("configID", sort=False)`,
`neps/plot/plot3D.py:120`. -/
def configsOf (l : List CurveRow) : List ℤ := (l.map (·.config)).reverse.dedup.reverse

/-- The rows of a configuration with their index. -/
def groupOf (l : List CurveRow) (c : ℤ) : List (CurveRow × ℕ) :=
  l.zipIdx.filter fun p => p.1.config = c

/-- What is drawn for the configuration at place `idx`, `neps/plot/plot3D.py:122-190`. A single point is
drawn with `zs=0, zdir="x"` in 3D; the flag is the one of `Plotter3D` that asks for single points. -/
def drawGroup (scatter : Bool) (idx : ℕ) (g : List (CurveRow × ℕ)) : Drawn :=
  if g.length < 2 then
    if scatter then
      { line := false
        flat := g.map fun p => ((p.1.epoch : ℚ), p.1.row.loss)
        deep := g.map fun p => (0, idx, p.1.row.loss)
        colours := g.map (·.2) }
    else ⟨false, [], [], []⟩
  else
    { line := true
      flat := g.map fun p => ((p.1.epoch : ℚ), p.1.row.loss)
      deep := g.map fun p => ((p.1.epoch : ℚ), idx, p.1.row.loss)
      colours := g.map (·.2) }

/-- The figure: what is drawn, the numbers in the footnote (configurations in all, with several
budgets, with one), and the limits of the axis of epochs in 3D. -/
structure Figure where
  drawn : List Drawn
  total : ℕ
  several : ℕ
  single : ℕ
  limits : Option ℚ × Option ℚ
deriving DecidableEq, Repr

/-- `plot3D`, `neps/plot/plot3D.py:95-230`; the limits are those of the fidelities,
`neps/plot/plot3D.py:82,195`. -/
def plotCurves (scatter : Bool) (rows : List CsvRow) : Option Figure :=
  (prepRows rows).map fun l =>
    let drawn := (configsOf l).zipIdx.map fun c => drawGroup scatter c.2 (groupOf l c.1)
    let several := (drawn.filter (·.line)).length
    let single := (drawn.filter fun d => !d.line).length
    { drawn := drawn, total := several + single, several := several, single := single
      limits := ((rows.map (·.fidelity)).min?, (rows.map (·.fidelity)).max?) }

end Neps.Plot
