import Mathlib.Data.List.Basic

/-!
# The surrogate models of ifBO that a process holds

Model of `_CACHED_FTPFN_MODEL` and of `FTPFNSurrogate.__init__`
(`neps/optimizers/bayesian_optimization/models/ftpfn.py:300-327`), which ifBO calls each time it is asked
after the initial design (`neps/optimizers/multi_fidelity/ifbo.py:193-197`).

Simplifications, for the whole file: whether the files are found or downloaded (modelled in
`Verif.Ifbo.DownloadModel`) and whether the package `ifbo` can load them are given with the call; the device
of a loaded model is the one it was loaded for; threads are not modelled.
-/

namespace Verif.Ifbo.Cache

/-- The arguments of `FTPFNSurrogate(...)` (`ftpfn.py:306-311`), the working directory at this moment, whether
`_download_workaround_for_ifbo_issue_10` returns (`ftpfn.py:40-92`), and whether `FTPFN(...)` does. -/
structure Call where
  target : Option String
  version : String
  device : Option String
  cwd : String
  ready : Bool
  loads : Bool
deriving DecidableEq, Repr

/-- A loaded model (`ftpfn.py:323`). `serial` is its identity. -/
structure Loaded where
  serial : ℕ
  path : String
  version : String
  device : Option String
deriving DecidableEq, Repr

/-- The cache (`ftpfn.py:300`), and how many models have been loaded in this process. -/
structure Mem where
  cache : List ((String × String) × Loaded) := []
  count : ℕ := 0
deriving DecidableEq, Repr

/-- The directory of the model: the argument, or `.model` in the working directory
(`ftpfn.py:45, 313-318`). -/
def Call.path (c : Call) : String := c.target.getD (c.cwd ++ "/.model")

/-- `key` (`ftpfn.py:320`). -/
def Call.key (c : Call) : String × String := (c.path, c.version)

/-- `_CACHED_FTPFN_MODEL.get(key)` (`ftpfn.py:321`). -/
def Mem.get (m : Mem) (k : String × String) : Option Loaded :=
  (m.cache.find? fun e => decide (e.1 = k)).map (·.2)

/-- `FTPFNSurrogate.__init__` (`ftpfn.py:306-327`): the model it uses; `none` if it raises. -/
def surrogate (m : Mem) (c : Call) : Option Loaded × Mem :=
  if c.target.isNone && !c.ready then (none, m)
  else
    match m.get c.key with
    | some f => (some f, m)
    | none =>
      if c.loads then
        let f : Loaded := ⟨m.count, c.path, c.version, c.device⟩
        (some f, ⟨(c.key, f) :: m.cache, m.count + 1⟩)
      else (none, m)

/-- The calls of a process, one after the other: what they get, and what the process holds in the end. -/
def calls (m : Mem) : List Call → List (Option Loaded) × Mem
  | [] => ([], m)
  | c :: cs =>
    let r := surrogate m c
    let rest := calls r.2 cs
    (r.1 :: rest.1, rest.2)

end Verif.Ifbo.Cache
