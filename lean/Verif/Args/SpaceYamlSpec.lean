import Verif.Args.SpaceYaml

/-!
# Specification: which parameter a YAML description denotes
-/

namespace Verif.Args

open Verif.Space

/-- One or more decimal digits. -/
def Digits (ds : List Char) : Prop := ds ≠ [] ∧ ∀ c ∈ ds, c.isDigit = true

/-- An optional minus sign. -/
def Sign (s : List Char) : Prop := s = [] ∨ s = ['-']

/-- Scientific notation as the project understands it: digits with an optional fraction, the letter
`e`, and digits, where both numbers may be negative (but not marked with a plus sign).  Blanks do
not matter, nor does a newline at the end. -/
def Sci (s : String) : Prop :=
  ∃ sign whole frac e sign' exp nl, s.toList.filter (fun c => c ≠ ' ') =
      sign ++ whole ++ frac ++ [e] ++ sign' ++ exp ++ nl ∧
    Sign sign ∧ Digits whole ∧ (frac = [] ∨ ∃ ds, frac = '.' :: ds ∧ Digits ds) ∧
    (e = 'e' ∨ e = 'E') ∧ Sign sign' ∧ Digits exp ∧ (nl = [] ∨ nl = ['\n'])

/-- A value written in scientific notation. -/
inductive SciText : Py → Prop
  | str {s : String} : Sci s → SciText (.str s)

/-- An integer; Python's booleans are integers. -/
inductive IntLike : Py → Prop
  | int (n : ℤ) : IntLike (.int n)
  | bool (b : Bool) : IntLike (.bool b)

/-- A float. -/
inductive FloatLike : Py → Prop
  | float (x : ℚ) : FloatLike (.float x)

/-- A number, or a text that `float` can read. -/
inductive Num (parse : String → Option ℚ) : Py → ℚ → Prop
  | true : Num parse (.bool true) 1
  | false : Num parse (.bool false) 0
  | int (n : ℤ) : Num parse (.int n) n
  | float (x : ℚ) : Num parse (.float x) x
  | str {s : String} {x : ℚ} : parse s = some x → Num parse (.str s) x

/-- A number or a text: a text in scientific notation stands for its number, any other text for
itself. -/
inductive Scalar (parse : String → Option ℚ) : Py → Val → Prop
  | true : Scalar parse (.bool true) (.num 1)
  | false : Scalar parse (.bool false) (.num 0)
  | int (n : ℤ) : Scalar parse (.int n) (.num n)
  | float (x : ℚ) : Scalar parse (.float x) (.num x)
  | sci {s : String} {x : ℚ} : Sci s → parse s = some x → Scalar parse (.str s) (.num x)
  | text {s : String} : ¬ (Sci s ∧ (parse s).isSome) → Scalar parse (.str s) (.str s)

/-- The kinds of parameters. -/
inductive Kind where
  | int
  | float
  | cat
  | const
  deriving DecidableEq

/-- The kind of a parameter. -/
def kindOf : Hp → Kind
  | .int _ => .int
  | .float _ => .float
  | .cat _ => .cat
  | .const _ => .const

/-- The kind a description asks for: by its type if it has one, else by its bounds or choices. -/
inductive HasKind (parse : String → Option ℚ) : Py → Kind → Prop
  | const {v : Py} {x : Val} : Scalar parse v x → HasKind parse v .const
  | typeInt {d : Dict Py} {t : String} : d.get? "type" = some (.str t) →
      t.toLower = "int" ∨ t.toLower = "integer" → HasKind parse (.dict d) .int
  | typeFloat {d : Dict Py} {t : String} : d.get? "type" = some (.str t) →
      t.toLower = "float" → HasKind parse (.dict d) .float
  | typeCat {d : Dict Py} {t : String} : d.get? "type" = some (.str t) →
      t.toLower = "cat" ∨ t.toLower = "categorical" → HasKind parse (.dict d) .cat
  | ints {d : Dict Py} {l u : Py} : d.get? "type" = none → d.get? "lower" = some l →
      d.get? "upper" = some u → IntLike l → IntLike u → HasKind parse (.dict d) .int
  | floats {d : Dict Py} {l u : Py} : d.get? "type" = none → d.get? "lower" = some l →
      d.get? "upper" = some u → FloatLike l → FloatLike u → HasKind parse (.dict d) .float
  | sci {d : Dict Py} {l u : Py} {x y : ℚ} : d.get? "type" = none → d.get? "lower" = some l →
      d.get? "upper" = some u → Num parse l x → Num parse u y → SciText l ∨ SciText u →
      HasKind parse (.dict d) .float
  | choices {d : Dict Py} {c : Py} : d.get? "type" = none →
      d.get? "lower" = none ∨ d.get? "upper" = none → d.get? "choices" = some c →
      HasKind parse (.dict d) .cat

/-- A flag of the description, false if it is missing. -/
def Flag (d : Dict Py) (k : String) (b : Bool) : Prop :=
  d.get? k = some (.bool b) ∨ (d.get? k = none ∧ b = false)

/-- The confidence of the description, "low" if it is missing. -/
def Confidence (d : Dict Py) (name : String) : Prop :=
  d.get? "default_confidence" = some (.str name) ∨
    (d.get? "default_confidence" = none ∧ name = "low")

/-- The description of a numerical parameter: exactly the documented keys, and the values they
have. -/
structure NumDecl (parse : String → Option ℚ) (d : Dict Py) (l u : ℚ) (log fid : Bool)
    (dflt : Option ℚ) (score : ℝ) : Prop where
  keys : ∀ k ∈ d.keys, k ∈ ["type", "lower", "upper", "log", "is_fidelity", "default",
    "default_confidence"]
  lower : ∃ v, d.get? "lower" = some v ∧ Num parse v l
  upper : ∃ v, d.get? "upper" = some v ∧ Num parse v u
  log : Flag d "log" log
  fid : Flag d "is_fidelity" fid
  dflt : (d.get? "default" = none ∧ dflt = none) ∨
    ∃ v x, d.get? "default" = some v ∧ Num parse v x ∧ dflt = some x
  conf : ∃ name, Confidence d name ∧ (name, score) ∈ [("low", (1 / 2 : ℝ)), ("medium", 1 / 4), ("high", 1 / 8)]

/-- The bounds of an integer parameter: two integers, or numbers without fractional part of which at
least one is in scientific notation. -/
def IntBounds (d : Dict Py) : Prop :=
  ∃ l u, d.get? "lower" = some l ∧ d.get? "upper" = some u ∧
    ((IntLike l ∧ IntLike u) ∨ SciText l ∨ SciText u)

/-- The parameter a description denotes: what the constructor of the kind returns for the described
values. -/
inductive Describes (parse : String → Option ℚ) : Py → Hp → Prop
  | const {v : Py} {x : Val} : Scalar parse v x → Describes parse v (.const ⟨x, x⟩)
  | int {d : Dict Py} {l u : ℤ} {log fid : Bool} {dflt : Option ℤ} {score : ℝ} {p : IntParam} :
      HasKind parse (.dict d) .int → IntBounds d →
      NumDecl parse d l u log fid (dflt.map fun (n : ℤ) => (n : ℚ)) score →
      IntParam.make l u log fid (dflt.map fun (n : ℤ) => (n : ℝ)) score = some p →
      Describes parse (.dict d) (.int p)
  | float {d : Dict Py} {l u : ℚ} {log fid : Bool} {dflt : Option ℚ} {score : ℝ} {p : FloatParam} :
      HasKind parse (.dict d) .float → NumDecl parse d l u log fid dflt score →
      FloatParam.make l u log fid (dflt.map fun (x : ℚ) => (x : ℝ)) score = some p →
      Describes parse (.dict d) (.float p)
  | cat {d : Dict Py} {cs : List Py} {vs : List Val} {dflt : Option Val} {name : String} {score : ℕ}
      {p : CatParam Val} :
      HasKind parse (.dict d) .cat →
      (∀ k ∈ d.keys, k ∈ ["type", "choices", "default", "default_confidence"]) →
      d.get? "choices" = some (.list cs) → List.Forall₂ (Scalar parse) cs vs →
      ((d.get? "default" = none ∧ dflt = none) ∨
        ∃ v x, d.get? "default" = some v ∧ Scalar parse v x ∧ dflt = some x) →
      Confidence d name → (name, score) ∈ [("low", 2), ("medium", 4), ("high", 6)] →
      CatParam.make vs dflt score = some p → Describes parse (.dict d) (.cat p)

/-- The parameters of a document: a document whose only key is `pipeline_space` holds them there. -/
inductive Body : Dict Py → Dict Py → Prop
  | inner (d : Dict Py) : Body [("pipeline_space", .dict d)] d
  | plain {d : Dict Py} : d.keys ≠ ["pipeline_space"] → Body d d

/-- The space a document describes: every parameter, under its name, in the order of the document.
-/
def DescribesSpace (parse : String → Option ℚ) (config : Dict Py) (space : Dict Hp) : Prop :=
  ∃ body, Body config body ∧
    List.Forall₂ (fun (c : String × Py) (s : String × Hp) => c.1 = s.1 ∧ Describes parse c.2 s.2)
      body space

end Verif.Args
