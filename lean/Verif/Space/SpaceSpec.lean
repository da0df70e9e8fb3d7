import Verif.Space.SearchSpace
import Verif.Space.ParamLemmas

/-!
# Specification of search spaces

The vocabulary in which the properties of search spaces are stated.
-/

namespace Verif.Space

namespace Hp

/-- The values the declaration of a parameter admits. -/
def Accepts (h : Hp) (v : Val) : Prop :=
  match h with
  | float p => ∃ x, v = .num x ∧ p.lower ≤ x ∧ x ≤ p.upper
  | int p => ∃ n : ℤ, v = .num n ∧ p.lower ≤ n ∧ n ≤ p.upper
  | cat p => v ∈ p.choices
  | const p => v = p.value

/-- Two parameters with the same declaration: kind, bounds or choices, scale, role and default. -/
def SameDecl (h q : Hp) : Prop :=
  match h, q with
  | float p, float q => q.lower = p.lower ∧ q.upper = p.upper ∧ q.log = p.log ∧
      q.isFidelity = p.isFidelity ∧ q.dflt = p.dflt
  | int p, int q => q.lower = p.lower ∧ q.upper = p.upper ∧ q.log = p.log ∧
      q.isFidelity = p.isFidelity ∧ q.dflt = p.dflt
  | cat p, cat q => q.choices = p.choices ∧ q.dflt = p.dflt
  | const p, const q => q.value = p.value ∧ q.dflt = p.dflt
  | _, _ => False

/-- Two parameters of the same kind, range and role; the default may differ. -/
def SameRange (h q : Hp) : Prop :=
  match h, q with
  | float p, float q => q.lower = p.lower ∧ q.upper = p.upper ∧ q.log = p.log ∧
      q.isFidelity = p.isFidelity
  | int p, int q => q.lower = p.lower ∧ q.upper = p.upper ∧ q.log = p.log ∧
      q.isFidelity = p.isFidelity
  | cat p, cat q => q.choices = p.choices
  | const p, const q => q.value = p.value
  | _, _ => False

/-- Is it a constant? -/
def IsConst : Hp → Prop
  | const _ => True
  | _ => False

/-- Is it a categorical parameter? -/
def IsCat : Hp → Prop
  | cat _ => True
  | _ => False

/-- A parameter in order: constructed and used through its methods, with a legal default and
holding no value or a legal one. -/
structure Ok (h : Hp) : Prop where
  used : match h with
    | float p => p.Used
    | int p => p.Used
    | cat p => p.Used
    | const p => p.dflt = p.value
  value : ∀ v, h.value = some v → h.Accepts v
  dflt : ∀ v, h.dflt = some v → h.Accepts v

/-- The draws of `np.random.choice` that can occur: an index of a choice. -/
def Drawable (h : Hp) (d : Draw) : Prop :=
  match h with
  | cat p => d.index < p.choices.length
  | _ => True

end Hp

namespace SearchSpace

/-- A search space or configuration in order: built by the constructor from parameters in order
with distinct names (the keys of a Python dictionary). -/
def InOrder (s : SearchSpace) : Prop :=
  ∃ hps : Dict Hp, hps.keys.Nodup ∧ (∀ p ∈ hps, p.2.Ok) ∧ make hps = some s

/-- `t` has the names of `s` in the same order, the parameters of the same name have the same
declaration, and are related by `R`. -/
def Pointwise (R : String → Hp → Hp → Prop) (s t : SearchSpace) : Prop :=
  List.Forall₂ (fun p q => q.1 = p.1 ∧ p.2.SameDecl q.2 ∧ R p.1 p.2 q.2) s t

/-- Every parameter has a value. -/
def Valued (s : SearchSpace) : Prop := ∀ p ∈ s, p.2.value ≠ none

end SearchSpace

end Verif.Space
