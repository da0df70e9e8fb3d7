import Verif.Args.Searcher

/-!
# Model of the list of searchers

`SearcherConfigs` (neps/optimizers/info.py): what the package tells the user about its searchers.
`Path.iterdir` gives the files of a directory in an order that depends on the file system, so all
functions take the list of files in whatever order it comes.
-/

namespace Verif.Args.Info

open Verif.Space (Dict)
open Verif.Space

/-- A file: the name up to the last dot, the rest of the name, the text and what `yaml.safe_load` makes
of it.  Simplification: the text is a dictionary. -/
structure File where
  stem : String
  suffix : String
  text : String
  config : Dict Py

/-- `file.suffix == ".yaml"` (neps/optimizers/info.py:35,51,74,95). -/
def File.isYaml (f : File) : Bool := f.suffix == ".yaml"

/-- `searcher_config.get("strategy")` (neps/optimizers/info.py:54,77).  Simplification: a strategy that is
not a text counts as none. -/
def File.strategy (f : File) : Option String :=
  match f.config.get? "strategy" with
  | some (.str s) => some s
  | _ => none

/-- `SearcherConfigs.get_searchers` (neps/optimizers/info.py:24-38). -/
def getSearchers : List File → List String
  | [] => []
  | f :: fs => if f.isYaml then f.stem :: getSearchers fs else getSearchers fs

/-- The loop of `SearcherConfigs.get_available_algorithms` (neps/optimizers/info.py:50-56): the set as a
list without repetitions. -/
def algorithmsLoop : List File → List String → List String
  | [], seen => seen
  | f :: fs, seen =>
    if f.isYaml then
      match f.strategy with
      | some a => if a ≠ "" ∧ a ∉ seen then algorithmsLoop fs (seen ++ [a]) else algorithmsLoop fs seen
      | none => algorithmsLoop fs seen
    else algorithmsLoop fs seen

/-- `SearcherConfigs.get_available_algorithms` (neps/optimizers/info.py:40-58). -/
def getAvailableAlgorithms (fs : List File) : List String := algorithmsLoop fs []

/-- `SearcherConfigs.get_searcher_from_algorithm` (neps/optimizers/info.py:60-80). -/
def getSearcherFromAlgorithm (algorithm : String) : List File → List String
  | [] => []
  | f :: fs =>
    if f.isYaml ∧ f.strategy = some algorithm then f.stem :: getSearcherFromAlgorithm algorithm fs
    else getSearcherFromAlgorithm algorithm fs

/-- `SearcherConfigs.get_searcher_kwargs` (neps/optimizers/info.py:82-100): the text of the first file
whose name starts with the argument; `none` is `FileNotFoundError`. -/
def getSearcherKwargs (searcher : String) : List File → Option String
  | [] => none
  | f :: fs =>
    if f.isYaml ∧ searcher.toList.isPrefixOf f.stem.toList then some f.text
    else getSearcherKwargs searcher fs

/-- The files of the package (neps/optimizers/default_searchers), with any texts that say what the files
say. -/
def packageFiles (text : String → String) : List File :=
  defaultSearchers.map fun p => ⟨p.1, ".yaml", text p.1, p.2⟩

end Verif.Args.Info
