import Verif.Cli.Model
import Verif.Status.Spec

/-!
# Vocabulary for the command line
-/

namespace Neps.Cli

open Neps.Ids

/-- The loss in the report of a trial. -/
def lossIn (t : Trial) : Option PyFloat :=
  match t.report with
  | none => none
  | some r => r.loss

/-- Every report has a loss. -/
def AllHaveLoss (trials : List (String × Trial)) : Prop :=
  ∀ p ∈ trials, ∀ r, p.2.report = some r → r.loss.isSome

/-- `t` is the `n`-th trial of an optimizer that numbers its trials `"1"`, `"2"`, ... -/
def HasNumber (t : Trial) (n : Nat) : Prop := t.id = String.ofList (natStr n)

/-- `t` evaluates configuration `c` at rung `r`: its id is `"<c>_<r>"`. -/
def HasRung (t : Trial) (c r : Nat) : Prop := t.id = String.ofList (fmtId c r)

/-- A trial is a record if its loss is smaller than that of every earlier trial (NaN is not a loss
one can compare with, and an infinite loss is no record). -/
def Record (earlier : Trial → Trial → Prop) (trials : List (String × Trial)) (t : Trial) : Prop :=
  ∃ x, lossIn t = some x ∧ x ≠ .nan ∧ x ≠ .pinf ∧
    ∀ p ∈ trials, earlier p.2 t → ∀ y, lossIn p.2 = some y → y = .nan ∨ PyFloat.lt x y = true

/-- The trial with the first smallest loss. -/
def BestTrial (earlier : Trial → Trial → Prop) (trials : List (String × Trial)) (t : Trial) : Prop :=
  ∃ x, lossIn t = some x ∧ x ≠ .nan ∧ x ≠ .pinf ∧
    ∀ p ∈ trials, ∀ y, lossIn p.2 = some y → y = .nan ∨ PyFloat.lt x y = true ∨
      (PyFloat.le x y = true ∧ ¬ earlier p.2 t)

/-- The incumbents of a run: exactly the records, latest first, the best trial on top; nothing only
if there is no loss to show. -/
def AreIncumbents (earlier : Trial → Trial → Prop) (trials : List (String × Trial))
    (shown : List Trial) : Prop :=
  (∀ t, t ∈ shown ↔ (∃ p ∈ trials, p.2 = t) ∧ Record earlier trials t) ∧
  shown.Pairwise (fun a b => earlier b a) ∧
  (∀ t, shown.head? = some t → BestTrial earlier trials t) ∧
  (shown = [] → ∀ p ∈ trials, ∀ x, lossIn p.2 = some x → x = .nan ∨ x = .pinf)

/-! ## `neps status` -/

/-- The trial was evaluated successfully. -/
def isSucceeded (t : Trial) : Bool :=
  match t.report with
  | some r => r.reportedAs == .success
  | none => false

/-- The clock gives numbers. -/
def TimesAreNumbers (trials : List (String × Trial)) : Prop :=
  ∀ p ∈ trials, ∃ q, p.2.metadata.timeSampled = .num q

/-- No trial was sampled later than one that stands before it. -/
def NewestFirst (l : List Trial) : Prop :=
  l.Pairwise (fun a b => PyFloat.le b.metadata.timeSampled a.metadata.timeSampled = true)

/-- The trials shown for the state asked for: all of them, each once, newest first. -/
def ShowsState (s : TState) (trials : List (String × Trial)) (shown : List Trial) : Prop :=
  shown.Perm ((trials.map Prod.snd).filter (fun t => t.state = s)) ∧ NewestFirst shown

/-- The trials shown without a flag: seven (or all, if there are fewer), newest first, and none of
the others is newer. -/
def ShowsLatest (trials : List (String × Trial)) (shown : List Trial) : Prop :=
  NewestFirst shown ∧ shown.length = min 7 trials.length ∧
  ∃ rest, (shown ++ rest).Perm (trials.map Prod.snd) ∧
    ∀ a ∈ shown, ∀ b ∈ rest,
      PyFloat.le b.metadata.timeSampled a.metadata.timeSampled = true

/-! ## Durations -/

/-- Reading `H:MM:SS`: minutes and seconds have two digits and are below 60. -/
def readHms (s : List Char) : Option Nat :=
  match split ':' s with
  | [h, m, c] =>
    match Ids.pyInt h, Ids.pyInt m, Ids.pyInt c with
    | some h, some m', some c' =>
      if m.length = 2 ∧ c.length = 2 ∧ h < 24 ∧ m' < 60 ∧ c' < 60 then
        some (3600 * h + 60 * m' + c')
      else none
    | _, _, _ => none
  | _ => none

/-- Reading a duration, `H:MM:SS` or `D day(s), H:MM:SS`, as a number of seconds. -/
def readDuration (s : List Char) : Option Nat :=
  match split ' ' s with
  | [hms] => readHms hms
  | [d, w, hms] =>
    match Ids.pyInt d, readHms hms with
    | some d, some n =>
      if w = (if d = 1 then "day,".toList else "days,".toList) then some (86400 * d + n) else none
    | _, _ => none
  | _ => none

/-! ## Arguments -/

/-- A value one may want to give as `--searcher-kwargs key=value`. -/
inductive Arg
  | int (i : Int)
  | bool (b : Bool)
  | float (x : PyFloat)
deriving DecidableEq, Repr

/-- `str(i)`. -/
def intStr : Int → List Char
  | .ofNat n => natStr n
  | .negSucc n => '-' :: natStr (n + 1)

/-- `str(v)`, given how floats are printed. -/
def Arg.text (repr : PyFloat → List Char) : Arg → List Char
  | .int i => intStr i
  | .bool true => "True".toList
  | .bool false => "False".toList
  | .float x => repr x

/-- The value. -/
def Arg.val : Arg → PyVal
  | .int i => .int i
  | .bool b => .bool b
  | .float x => .float x

/-- What Python guarantees about `repr` of a finite float: `float` reads it back, and it has a point or
an exponent. -/
def GoodRepr (fs : String → Option PyFloat) (repr : PyFloat → List Char) : Prop :=
  ∀ q : Rat, fs (String.ofList (repr (.num q))) = some (.num q) ∧
    ('.' ∈ repr (.num q) ∨ 'e' ∈ repr (.num q)) ∧ ∀ c ∈ repr (.num q), c = '.' ∨ c = 'e' ∨ c = '+' ∨
      c = '-' ∨ c.isDigit = true

end Neps.Cli
