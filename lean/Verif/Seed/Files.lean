import Mathlib.Data.Rat.Defs
import Mathlib.Tactic.Ring

/-!
# Model of the files of the random number generators

`neps/state/seed_snapshot.py` and `ReaderWriterSeedSnapshot`, `neps/state/filebased.py:260-354`, down
to the bytes of the files of whole numbers.

Simplifications: the scalars in `seed_info.json` are kept as they are (they are whole numbers, a text
and floats, which the YAML library reads as it writes them); the states of torch are lists of bytes,
kept as they are by `torch.save` and `torch.load`; every host has torch (a dependency of neps).
-/

namespace Neps.Seed.Files

/-- `random.getstate()`: version, words, and the next Gaussian number if there is one. -/
structure PyState where
  version : ℤ
  words : List ℤ
  gauss : Option ℚ
deriving DecidableEq, Repr

/-- `np.random.get_state(legacy=True)`. -/
structure NpState where
  kind : String
  keys : List ℕ
  pos : ℤ
  hasGauss : ℤ
  gauss : ℚ
deriving DecidableEq, Repr

/-- The generators of a process. `cuda` has a state for each device; `none` if CUDA is not
available. -/
structure Gens where
  py : PyState
  np : NpState
  torch : List ℕ
  cuda : Option (List (List ℕ))
deriving DecidableEq, Repr

/-- `SeedSnapshot`, `neps/state/seed_snapshot.py:21-33`. -/
structure Snap where
  py : PyState
  np : NpState
  torch : Option (List ℕ)
  cuda : Option (List (List ℕ))
deriving DecidableEq, Repr

/-- `seed_info.json`, `neps/state/filebased.py:334-341`. -/
structure Info where
  npKind : String
  npPos : ℤ
  npHasGauss : ℤ
  npGauss : ℚ
  pyVersion : ℤ
  pyGauss : Option ℚ
deriving DecidableEq, Repr

/-- The directory with the files, `neps/state/filebased.py:267-271`; `none` is a missing file. -/
structure Dir where
  py : Option (List ℕ) := none
  np : Option (List ℕ) := none
  info : Option Info := none
  torch : Option (List ℕ) := none
  cuda : Option (List (List ℕ)) := none
deriving DecidableEq, Repr

/-- `k` bytes of a number, the lowest first (the layout of `tofile` on the usual machines). -/
def toBytes : ℕ → ℕ → List ℕ
  | 0, _ => []
  | k + 1, n => n % 256 :: toBytes k (n / 256)

/-- The number of some bytes. -/
def ofBytes : List ℕ → ℕ
  | [] => 0
  | b :: l => b + 256 * ofBytes l

/-- A number as `np.int64`; `none` is an `OverflowError`. -/
def toInt64 (z : ℤ) : Option (List ℕ) :=
  if -2 ^ 63 ≤ z ∧ z < 2 ^ 63 then some (toBytes 8 (z % 2 ^ 64).toNat) else none

/-- The number of an `np.int64`. -/
def ofInt64 (l : List ℕ) : ℤ :=
  if ofBytes l < 2 ^ 63 then ofBytes l else (ofBytes l : ℤ) - 2 ^ 64

/-- `np.fromfile`: as many numbers of `k` bytes as there are; the first argument is the length of the
file. -/
def chunks (k : ℕ) : ℕ → List ℕ → List (List ℕ)
  | 0, _ => []
  | n + 1, l => if l.length < k ∨ l = [] then [] else l.take k :: chunks k n (l.drop k)

/-- `SeedSnapshot.recapture` and `new_capture`, `neps/state/seed_snapshot.py:35-62`. -/
def capture (g : Gens) : Snap := ⟨g.py, g.np, some g.torch, g.cuda⟩

/-- `torch.cuda.set_rng_state_all`: a state for each device, the first devices get them; more states
than devices are an error (`none`). -/
def setCuda (ss ds : List (List ℕ)) : Option (List (List ℕ)) :=
  if ss.length ≤ ds.length then some (ss ++ ds.drop ss.length) else none

/-- `SeedSnapshot.set_as_global_seed_state`, `neps/state/seed_snapshot.py:64-76`; `none` is an
exception. -/
def setGlobal (s : Snap) (g : Gens) : Option Gens :=
  let cpu : Gens := { g with py := s.py, np := s.np, torch := s.torch.getD g.torch }
  match s.cuda, g.cuda with
  | some ss, some ds => (setCuda ss ds).map fun ds' => { cpu with cuda := some ds' }
  | _, _ => some cpu

/-- The files written by `ReaderWriterSeedSnapshot.write`, `neps/state/filebased.py:321-354`, one after
the other; `none` is an exception before anything is written. -/
def writes (s : Snap) : Option (List (Dir → Dir)) :=
  (s.py.words.mapM toInt64).map fun ws =>
    [fun d : Dir => { d with py := some ws.flatten },
      fun d : Dir => { d with info := some ⟨s.np.kind, s.np.pos, s.np.hasGauss, s.np.gauss, s.py.version,
        s.py.gauss⟩ },
      fun d : Dir => { d with np := some (s.np.keys.flatMap (toBytes 4)) }] ++
    (match s.torch with
      | some t => [fun d : Dir => { d with torch := some t }]
      | none => []) ++
    (match s.cuda with
      | some t => [fun d : Dir => { d with cuda := some t }]
      | none => [])

/-- The directory after the first `k` writes. -/
def writeUpto (k : ℕ) (s : Snap) (d : Dir) : Option Dir :=
  (writes s).map fun ws => (ws.take k).foldl (fun d w => w d) d

/-- `ReaderWriterSeedSnapshot.write`. -/
def write (s : Snap) (d : Dir) : Option Dir :=
  (writes s).map fun ws => ws.foldl (fun d w => w d) d

/-- `ReaderWriterSeedSnapshot.read`, `neps/state/filebased.py:273-319`; `none` is an exception
(a missing file). -/
def read (d : Dir) : Option Snap :=
  match d.py, d.np, d.info with
  | some p, some n, some i =>
    some
      { np := ⟨i.npKind, (chunks 4 n.length n).map ofBytes, i.npPos, i.npHasGauss, i.npGauss⟩
        py := ⟨i.pyVersion, (chunks 8 p.length p).map ofInt64, i.pyGauss⟩
        torch := d.torch
        cuda := d.cuda }
  | _, _, _ => none

/-- `SeedSnapshot.__eq__`, `neps/state/seed_snapshot.py:78-114`. The lists of devices are compared with
`zip(..., strict=False)`, the last two lines compare only the types. -/
def eq (a b : Snap) : Bool :=
  if a.py ≠ b.py then false
  else if ¬ (a.np.kind = b.np.kind ∧ a.np.pos = b.np.pos ∧ a.np.hasGauss = b.np.hasGauss ∧
      a.np.gauss = b.np.gauss) then false
  else if a.np.keys ≠ b.np.keys then false
  else if (match a.torch, b.torch with | some x, some y => decide (x ≠ y) | _, _ => false) then false
  else if (match a.cuda, b.cuda with
      | some x, some y => !(x.zip y).all fun p => decide (p.1 = p.2)
      | _, _ => false) then false
  else if a.torch.isSome ≠ b.torch.isSome then false
  else a.cuda.isSome = b.cuda.isSome

end Neps.Seed.Files
