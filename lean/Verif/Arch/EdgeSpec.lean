import Verif.Arch.EdgeModel

/-!
# Specification: what edges have in common

Every new edge and every clone founds a family; a copy belongs to the family of the edge it was copied
from. Shared items belong to the family, private items to the edge.
-/

namespace Verif.Arch.Edge

/-- The families of the edges after one more operation, if it was not refused. -/
def family (n : ℕ) (fam : List ℕ) : Op → List ℕ
  | .new _ => fam ++ [n]
  | .clone _ => fam ++ [n]
  | .copy i => match fam[i]? with
    | some f => fam ++ [f]
    | none => fam
  | _ => fam

/-- The families after a history (`n` operations came before it). -/
def families (s : St) (n : ℕ) (fam : List ℕ) : List Op → List ℕ
  | [] => fam
  | o :: l => families (step s o).1 (n + 1) (if (step s o).2 then family n fam o else fam) l

/-- Histories in which no edge takes over the dictionaries of another one. -/
def NoTakeover (l : List Op) : Prop := ∀ o ∈ l, ∀ i j, o ≠ .updateEdge i j

end Verif.Arch.Edge
