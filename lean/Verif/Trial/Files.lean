/-!
# Names of trial directories and the error log file

Model of `TrialRepoInDirectory.all_trial_ids` and of `ReaderWriterErrDump`
(`neps/state/filebased.py`). Strings are lists of characters.
-/

namespace Neps

/-! ### Directory names, `neps/state/filebased.py:94-100, 131, 170` -/

/-- `s.replace(p, "")` for a nonempty `p`: delete the occurrences from left to right. `skip` counts
the characters of the current occurrence still to be deleted. -/
def removeAll (p : List Char) : Nat → List Char → List Char
  | _, [] => []
  | skip + 1, _ :: cs => removeAll p skip cs
  | 0, c :: cs =>
    if p.isPrefixOf (c :: cs) then removeAll p (p.length - 1) cs
    else c :: removeAll p 0 cs

/-- `config_`. -/
def cfgPrefix : List Char := ['c', 'o', 'n', 'f', 'i', 'g', '_']

/-- The directory name of a trial id, `f"config_{trial.metadata.id}"`,
`neps/state/filebased.py:131, 170`. -/
def dirName (id : List Char) : List Char := cfgPrefix ++ id

/-- A directory entry: its name and whether it is a directory. -/
structure Entry where
  name : List Char
  isDir : Bool

/-- `all_trial_ids`, `neps/state/filebased.py:94-100` (as a list; the code builds a set). -/
def allTrialIds (entries : List Entry) : List (List Char) :=
  (entries.filter (fun e => cfgPrefix.isPrefixOf e.name && e.isDir)).map
    (fun e => removeAll cfgPrefix 0 e.name)

/-! ### The error log file, `neps/state/filebased.py:405-424` -/

/-- `"\n".join(lines)`. -/
def joinLines : List (List Char) → List Char
  | [] => []
  | [l] => l
  | l :: ls => l ++ '\n' :: joinLines ls

/-- The lines a text file iterates over (each with its newline, except perhaps the last one).
`acc` is the current line, reversed. -/
def fileLines : List Char → List Char → List (List Char)
  | acc, [] => if acc = [] then [] else [acc.reverse]
  | acc, c :: cs =>
    if c = '\n' then (('\n' :: acc).reverse) :: fileLines [] cs else fileLines (c :: acc) cs

/-- `ReaderWriterErrDump.write`, `neps/state/filebased.py:420-424`; `enc` is
`json.dumps(asdict(e))`. -/
def writeErrs {E : Type} (enc : E → List Char) (es : List E) : List Char := joinLines (es.map enc)

/-- `ReaderWriterErrDump.read`, `neps/state/filebased.py:412-417`; `dec` is `json.loads` followed by
the constructor (`none` = it raises). -/
def readErrs {E : Type} (dec : List Char → Option E) (file : List Char) : Option (List E) :=
  (fileLines [] file).mapM dec

end Neps
