import Verif.Args.Init

/-!
# Specification: filling in a template
-/

namespace Verif.Args

open Verif.Space (Dict)

/-- The value at a place of a document, given by the keys that lead to it, is replaced. `none` if
there is no such place. -/
def putAt : List String → Py → Py → Option Py
  | [], _, v => some v
  | k :: ks, .dict d, v =>
    match Dict.get? d k with
    | some w => (putAt ks w v).map fun w' => .dict (Dict.set d k w')
    | none => none
  | _ :: _, _, _ => none

/-- The user fills in values at places of a template. -/
def filledIn (template : Py) (entries : List (List String × Py)) : Option Py :=
  entries.foldlM (fun t e => putAt e.1 t e.2) template

end Verif.Args
