import Verif.Create.Model

/-!
# Vocabulary for the properties of creating or loading a run
-/

namespace Neps.Create

variable {V : Type}

/-- Process `p` is not in the middle of a call. -/
def World.Free (W : World V) (p : Nat) : Prop :=
  (W.proc p).pc = .idle ∨ (W.proc p).pc = .done ∨ ∃ e, (W.proc p).pc = .failed e

/-- Nobody is inside a lock. -/
def World.Quiet (W : World V) : Prop := ∀ r, W.lock r = none

/-- The call of `p` returned. -/
def World.Returned (W : World V) (p : Nat) : Prop := (W.proc p).pc = .done

/-- The call of `p` raised `e`. -/
def World.Raised (W : World V) (p : Nat) (e : Err) : Prop := (W.proc p).pc = .failed e

/-- Resource `r` is on disk with value `v`. -/
def World.Has (W : World V) (r : Res) (v : V) : Prop := W.cell r = ⟨true, .whole v⟩

/-- Nothing of resource `r` is on disk. -/
def World.Lacks (W : World V) (r : Res) : Prop := W.cell r = .empty

/-- Process `p` is inside the code that writes a resource for the first time. -/
def World.Writing (W : World V) (p : Nat) : Prop :=
  ∃ r, (W.proc p).pc = .openFile r ∨ (W.proc p).pc = .fill r

/-- In the schedule `s` from `W`, nobody is killed while writing a resource for the first time. -/
def SafeKills (F : Format V) : World V → List (Act V) → Prop
  | _, [] => True
  | W, a :: s => (∀ p, a = .kill p → ¬ W.Writing p) ∧ SafeKills F (act F W a) s

/-- All calls of the schedule satisfy `P`. -/
def CallsWith (P : (Res → V) → Prop) (s : List (Act V)) : Prop :=
  ∀ p g, Act.call p g ∈ s → P g

namespace IVal

mutual
/-- Dictionaries have distinct keys, everywhere inside the value (always so in Python). -/
def WF : IVal → Prop
  | .list l | .tuple l => WFList l
  | .dict d => (d.map Prod.fst).Nodup ∧ WFDict d
  | _ => True
/-- Lists. -/
def WFList : List IVal → Prop
  | [] => True
  | v :: l => WF v ∧ WFList l
/-- Dictionaries. -/
def WFDict : List (String × IVal) → Prop
  | [] => True
  | (_, v) :: l => WF v ∧ WFDict l
end

mutual
/-- No NaN, no iterable other than texts, lists and mappings, and no object that YAML cannot
represent, anywhere inside the value. -/
def Plain : IVal → Prop
  | .float .nan => False
  | .tuple _ => False
  | .obj _ => False
  | .list l => PlainList l
  | .dict d => PlainDict d
  | _ => True
/-- Lists. -/
def PlainList : List IVal → Prop
  | [] => True
  | v :: l => Plain v ∧ PlainList l
/-- Dictionaries. -/
def PlainDict : List (String × IVal) → Prop
  | [] => True
  | (_, v) :: l => Plain v ∧ PlainDict l
end

mutual
/-- An object that YAML cannot represent is somewhere inside the value. -/
def HasObj : IVal → Prop
  | .obj _ => True
  | .list l | .tuple l => HasObjList l
  | .dict d => HasObjDict d
  | _ => False
/-- Lists. -/
def HasObjList : List IVal → Prop
  | [] => False
  | v :: l => HasObj v ∨ HasObjList l
/-- Dictionaries. -/
def HasObjDict : List (String × IVal) → Prop
  | [] => False
  | (_, v) :: l => HasObj v ∨ HasObjDict l
end

end IVal

end Neps.Create
