import Verif.Trial.Model

/-!
# Vocabulary for the properties of results and trial files
-/

namespace Neps

/-- `x` is the float value of `v`. -/
def IsFloat (fs : String → Option PyFloat) (v : PyVal) (x : PyFloat) : Prop :=
  v.toFloat fs = .ok x

/-- `xs` are the float values of the elements of the iterable `v`. -/
def AreFloats (fs : String → Option PyFloat) (v : PyVal) (xs : List PyFloat) : Prop :=
  ∃ vs, v.iter = .ok vs ∧ List.Forall₂ (IsFloat fs) vs xs

/-- `c` is the cost meant by the result `d`: the default if there is no `cost` key, no cost if
it is `None`, otherwise its float value. -/
def IsCost (fs : String → Option PyFloat) (d : List (String × PyVal)) (dflt : Option PyFloat)
    (c : Option PyFloat) : Prop :=
  match Dict.get d "cost" with
  | none => c = dflt
  | some .none => c = none
  | some v => ∃ x, IsFloat fs v x ∧ c = some x

/-- The learning curve the user gave in the result `d`, if any: the top-level entry, else the one
inside `info_dict`. -/
def givenCurve (d : List (String × PyVal)) : Option PyVal :=
  match Dict.get d "learning_curve" with
  | some v => some v
  | none =>
    match Dict.get d "info_dict" with
    | some (.dict i) => Dict.get i "learning_curve"
    | _ => none

/-- `lc` is what a configured default learning curve means, given the loss. -/
def IsDefaultCurve (dflt : DefaultLC) (loss : PyFloat) (lc : Option (List PyFloat)) : Prop :=
  match dflt with
  | .none => lc = none
  | .loss => lc = some [loss]
  | .list l => lc = some l

/-- `lc` is the learning curve meant by the result `d`. -/
def IsCurve (fs : String → Option PyFloat) (d : List (String × PyVal)) (dflt : DefaultLC)
    (loss : PyFloat) (lc : Option (List PyFloat)) : Prop :=
  match givenCurve d with
  | none => IsDefaultCurve dflt loss lc
  | some .none => lc = none
  | some v => if v = .str "loss" then lc = some [loss] else ∃ xs, AreFloats fs v xs ∧ lc = some xs

/-- `info_dict`, if it is consulted for a learning curve, is a dictionary. -/
def InfoOk (d : List (String × PyVal)) : Prop :=
  Dict.get d "learning_curve" = none → ∀ v, Dict.get d "info_dict" = some v → ∃ i, v = .dict i

/-- What the `extra` of the report should hold under key `k`. -/
def expectedExtra (d : List (String × PyVal)) (k : String) : Option PyVal :=
  if k = "loss" ∨ k = "cost" ∨ k = "learning_curve" then none
  else if k = "info_dict" ∧ Dict.get d "learning_curve" = none then
    match Dict.get d "info_dict" with
    | some (.dict i) => some (.dict (Dict.erase i "learning_curve"))
    | other => other
  else Dict.get d k

/-- The trial as it can be recovered from disk: the class of an exception is lost, its message is
kept. -/
def Trial.recovered (t : Trial) : Trial :=
  { t with report := t.report.map (fun r =>
      { r with err := r.err.map (fun e => { cls := "Exception", msg := e.msg }) }) }

/-- The trial holds only values that YAML can represent, and an exception (if any) that can be
copied. -/
def Trial.Storable (t : Trial) : Prop :=
  dumpableDict t.config = true ∧
  ∀ r, t.report = some r →
    dumpableDict r.extra = true ∧ (∀ e, r.err = some e → e.copyable = true)

/-- Write the versions of a trial one after the other. -/
def writeAll (ts : List Trial) (d : TrialDir) : TrialDir :=
  ts.foldl (fun d t => (writeTrial t d).1) d

end Neps
