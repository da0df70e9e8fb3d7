import Mathlib.Data.Nat.Notation
import Mathlib.Data.List.Basic

/-!
# Model of the download of ifBO's surrogate model

`_download_workaround_for_ifbo_issue_10`, `neps/optimizers/bayesian_optimization/models/ftpfn.py:40-92`, as
several processes with the same working directory execute it and may be killed at any point.

Simplifications: the archive consists of `n` pieces and so does the one file in it, each piece of the file
coming from the piece of the archive with the same number; a file that is there is the list of the pieces
written to it since it was opened for writing; of the files of other versions only whether there are some
is kept (`other`); the directory exists.
-/

namespace Verif.Ifbo.Download

/-- Where a process is. -/
inductive Pc
  | idle
  | fetch
  | write (i : ℕ)
  | extract (j : ℕ)
  | done
  | failed
  | dead
deriving DecidableEq, Repr

/-- The directory and the processes: the archive of the version, its `.pt` file, whether there are `.pt`
files of other versions. -/
structure Sys where
  other : Bool
  zip : Option (List ℕ)
  pt : Option (List ℕ)
  pc : ℕ → Pc

/-- What happens next: a process goes on, where `ok` tells whether the server answers, or is killed. -/
inductive Ev
  | step (w : ℕ) (ok : Bool)
  | kill (w : ℕ)
deriving DecidableEq, Repr

/-- A process moves on. -/
def upd (pc : ℕ → Pc) (w : ℕ) (p : Pc) : ℕ → Pc := fun v => if v = w then p else pc v

/-- The test whether the model is there, `ftpfn.py:50-57`. -/
def found (s : Sys) : Bool := s.zip.isSome && (s.pt.isSome || s.other)

/-- One step of a process. -/
def next (n : ℕ) (s : Sys) : Ev → Sys
  | .kill w => match s.pc w with
    | .done => s
    | .failed => s
    | _ => { s with pc := upd s.pc w .dead }
  | .step w ok => match s.pc w with
    -- `ftpfn.py:50-57`
    | .idle => if found s then { s with pc := upd s.pc w .done } else { s with pc := upd s.pc w .fetch }
    -- `ftpfn.py:59-69`: an error, or the archive is opened for writing, which empties it
    | .fetch => if ok then { s with zip := some [], pc := upd s.pc w (.write 0) }
      else { s with pc := upd s.pc w .failed }
    | .write i =>
      if i < n then
        -- `ftpfn.py:70-71`
        { s with zip := s.zip.map (i :: ·), pc := upd s.pc w (.write (i + 1)) }
      else
        -- `ftpfn.py:79-85`: the archive is opened for reading, and the file for writing
        if 0 ∈ s.zip.getD [] ∨ n = 0 then { s with pt := some [], pc := upd s.pc w (.extract 0) }
        else { s with pc := upd s.pc w .failed }
    | .extract j =>
      if j < n then
        -- `ftpfn.py:85-89`: piece by piece; a piece that is not there is an error
        if j ∈ s.zip.getD [] then
          { s with pt := s.pt.map (j :: ·), pc := upd s.pc w (.extract (j + 1)) }
        else { s with pc := upd s.pc w .failed }
      else
        -- `ftpfn.py:92`
        { s with pc := upd s.pc w .done }
    | .done => s
    | .failed => s
    | .dead => s

/-- A sequence of steps. -/
def run (n : ℕ) (s : Sys) (es : List Ev) : Sys := es.foldl (next n) s

/-- A directory without this version; no process has started yet. -/
def fresh (other : Bool) : Sys := ⟨other, none, none, fun _ => .idle⟩

end Verif.Ifbo.Download
