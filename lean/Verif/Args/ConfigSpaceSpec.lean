import Verif.Args.ConfigSpace

/-!
# What a space of `ConfigSpace` means
-/

namespace Verif.Args

open Verif.Space

/-- What the library `ConfigSpace` guarantees of every hyperparameter. -/
def CSKind.Legal : CSKind → Prop
  | .const _ => True
  | .cat choices dflt => choices.Nodup ∧ dflt ∈ choices
  | .ord sequence dflt => sequence.Nodup ∧ dflt ∈ sequence
  | .int lower upper log _ dflt =>
    lower < upper ∧ (log = true → 0 < lower) ∧ lower ≤ dflt ∧ dflt ≤ upper
  | .float lower upper log _ dflt =>
    lower < upper ∧ (log = true → 0 < lower) ∧ lower ≤ dflt ∧ dflt ≤ upper
  | .other => True

/-- The values a hyperparameter of `ConfigSpace` can take. -/
def CSKind.Allows : CSKind → Val → Prop
  | .const w, v => v = w
  | .cat choices _, v => v ∈ choices
  | .ord sequence _, v => v ∈ sequence
  | .int lower upper _ step _, v => ∃ n : ℤ, v = .num n ∧ lower ≤ n ∧ n ≤ upper ∧
      ∀ q, step = some q → ∃ k : ℕ, n = lower + k * q
  | .float lower upper _ step _, v => ∃ x : ℝ, v = .num x ∧ lower ≤ x ∧ x ≤ upper ∧
      ∀ q, step = some q → ∃ k : ℕ, x = lower + k * q
  | .other, _ => True

/-- Its default value. -/
noncomputable def CSKind.dflt : CSKind → Option Val
  | .const w => some w
  | .cat _ d => some d
  | .ord _ d => some d
  | .int _ _ _ _ d => some (.num d)
  | .float _ _ _ _ d => some (.num d)
  | .other => none

/-- Is it varied on a logarithmic scale? -/
def CSKind.isLog : CSKind → Bool
  | .int _ _ log _ _ => log
  | .float _ _ log _ _ => log
  | _ => false

/-- Is it varied on a logarithmic scale? -/
def _root_.Verif.Space.Hp.isLog : Hp → Bool
  | .float p => p.log
  | .int p => p.log
  | _ => false

/-- A kind of hyperparameter NePS knows. -/
def CSKind.Known : CSKind → Prop
  | .other => False
  | _ => True

/-- It has no step width. -/
def CSKind.Smooth : CSKind → Prop
  | .int _ _ _ step _ => step = none
  | .float _ _ _ step _ => step = none
  | _ => True

/-- It is no categorical or ordinal hyperparameter with a single choice. -/
def CSKind.Varied : CSKind → Prop
  | .cat choices _ => 2 ≤ choices.length
  | .ord sequence _ => 2 ≤ sequence.length
  | _ => True

/-- A constant. -/
def CSKind.IsConst : CSKind → Prop
  | .const _ => True
  | _ => False

/-- What the library guarantees of every space: distinct names and legal hyperparameters. -/
def ConfigSpace.Legal (c : ConfigSpace) : Prop := c.hps.keys.Nodup ∧ ∀ p ∈ c.hps, p.2.Legal

/-- A declared parameter: one of NePS or one of `ConfigSpace`. -/
inductive Decl where
  | own (h : Hp)
  | other (k : CSKind)

/-- The parameters an entry declares: a space in the dictionary stands for its hyperparameters. -/
def declaredBy (p : String × Entry) : List (String × Decl) :=
  match p.2 with
  | .own h => [(p.1, .own h)]
  | .space c => c.hps.map fun q => (q.1, .other q.2)

/-- The parameters the argument declares, by name. -/
def SpaceIn.declared : SpaceIn → List (String × Decl)
  | .space c => c.hps.map fun q => (q.1, .other q.2)
  | .dict d => d.flatMap declaredBy

/-- The `ConfigSpace` objects the argument consists of. -/
def SpaceIn.spaces : SpaceIn → List ConfigSpace
  | .space c => [c]
  | .dict d => d.filterMap fun p => match p.2 with
    | .own _ => none
    | .space c => some c

/-- The declaration is legal: an own parameter is in order, a hyperparameter is legal in
`ConfigSpace`. -/
def Decl.Legal : Decl → Prop
  | .own h => h.Ok
  | .other k => k.Legal

/-- The values the declaration allows. -/
def Decl.Allows : Decl → Val → Prop
  | .own h => h.Accepts
  | .other k => k.Allows

/-- The declared default. -/
noncomputable def Decl.dflt : Decl → Option Val
  | .own h => h.dflt
  | .other k => k.dflt

/-- Is the declared parameter the fidelity?  `ConfigSpace` has none. -/
def Decl.isFidelity : Decl → Bool
  | .own h => h.isFidelity
  | .other _ => false

/-- Is the declared parameter varied on a logarithmic scale? -/
def Decl.isLog : Decl → Bool
  | .own h => h.isLog
  | .other k => k.isLog

/-- NePS can express the hyperparameter: a known kind, with no step width and not with a single
choice. -/
def Decl.Plain : Decl → Prop
  | .own _ => True
  | .other k => k.Known ∧ k.Smooth ∧ k.Varied

end Verif.Args
