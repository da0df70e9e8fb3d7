import Verif.Args.Construct
import Verif.Args.SearcherProps
import Verif.Space.EnhanceProps

/-!
# Lemmas about the constructors of the optimizers
-/

namespace Verif.Args

open Verif.Space (Dict)
open Verif.Space

/-! ## Where the value of an attribute comes from -/

/-- The value of an attribute, in terms of the arguments of the call. -/
def origin : Chain → String → Option Src
  | [], _ => none
  | l :: ls, a =>
    (Dict.get? l.attrs.reverse a).or
      ((origin ls a).map fun src => match src with
        | .const v => .const v
        | .arg p => (l.pass.get? p).getD (.const (((Chain.sig ls).optional.get? p).getD .null)))

theorem evalAll_get? (s : Sig) (kw : Dict Py) (d : Dict Src) (k : String) :
    (evalAll s kw d).get? k = (d.get? k).map (Src.val s kw) := by
  induction d with
  | nil => rfl
  | cons p d ih =>
    obtain ⟨k', v⟩ := p
    simp only [evalAll, List.map_cons] at ih ⊢
    rw [Dict.get?_cons, Dict.get?_cons, ih]
    split_ifs <;> rfl

theorem evalAll_reverse (s : Sig) (kw : Dict Py) (d : Dict Src) :
    (evalAll s kw d).reverse = evalAll s kw d.reverse := by
  simp [evalAll, List.map_reverse]

theorem evalAll_keys (s : Sig) (kw : Dict Py) (d : Dict Src) : (evalAll s kw d).keys = d.keys := by
  simp [evalAll, Dict.keys]

theorem value_pass (s' s : Sig) (kw : Dict Py) (d : Dict Src) (p : String) :
    s'.value (evalAll s kw d) p =
      Src.val s kw ((d.get? p).getD (.const ((s'.optional.get? p).getD .null))) := by
  unfold Sig.value
  rw [evalAll_get?]
  cases d.get? p <;> simp [Src.val]

theorem plain_attr {ctx : Ctx} {c : Chain} {s : SearchSpace} {kw : Dict Py} {r : SearchSpace × Dict Py}
    (h : plain ctx c s kw = .ok r) {a : String} {src : Src} (ho : origin c a = some src) :
    r.2.get? a = some (src.val c.sig kw) := by
  induction c generalizing s kw r src with
  | nil => simp [origin] at ho
  | cons l ls ih =>
    simp only [plain] at h
    split_ifs at h with hf
    cases hp : plain ctx ls s (evalAll l.sig kw l.pass) with
    | error e => simp [hp] at h
    | ok r' =>
      obtain ⟨s', at'⟩ := r'
      simp only [hp] at h
      cases hb : l.body ctx s' (l.sig.value kw) with
      | error e => simp [hb] at h
      | ok s'' =>
        simp only [hb, Except.ok.injEq] at h
        subst h
        simp only [origin] at ho
        simp only [Chain.sig]
        rw [Dict.get?_update, evalAll_reverse, evalAll_get?]
        cases ha : Dict.get? l.attrs.reverse a with
        | some v => rw [ha] at ho; simp only [Option.some_or, Option.some.injEq] at ho; subst ho; rfl
        | none =>
          rw [ha] at ho
          simp only [Option.none_or, Option.map_eq_some_iff] at ho
          obtain ⟨src', ho', rfl⟩ := ho
          have := ih hp ho'
          simp only [Option.map_none, Option.none_or, this]
          cases src' with
          | const v => rfl
          | arg p => exact congrArg some (value_pass _ _ _ _ _)

theorem construct_attr {ctx : Ctx} {c : Chain} {s : SearchSpace} {kw : Dict Py} {o : Made}
    (h : construct ctx c s kw = .ok o) {a : String} {src : Src} (ho : origin c a = some src) :
    o.attrs.get? a = some (src.val c.sig kw) := by
  induction c generalizing s kw o src with
  | nil => simp [origin] at ho
  | cons l ls ih =>
    simp only [construct] at h
    split_ifs at h with hf
    cases hp : construct ctx ls s (evalAll l.sig kw l.pass) with
    | error e => simp [hp] at h
    | ok o' =>
      simp only [hp] at h
      cases hb : l.body ctx o'.space (l.sig.value kw) with
      | error e => simp [hb] at h
      | ok s'' =>
        simp only [hb] at h
        have hat : o.attrs = o'.attrs.update (evalAll l.sig kw l.attrs) := by
          revert h
          cases l.brackets with
          | none => simp only [Except.ok.injEq]; rintro rfl; rfl
          | some q =>
            simp only
            split
            · simp
            · simp only [Except.ok.injEq]; rintro rfl; rfl
        rw [hat]
        simp only [origin] at ho
        simp only [Chain.sig]
        rw [Dict.get?_update, evalAll_reverse, evalAll_get?]
        cases ha : Dict.get? l.attrs.reverse a with
        | some v => rw [ha] at ho; simp only [Option.some_or, Option.some.injEq] at ho; subst ho; rfl
        | none =>
          rw [ha] at ho
          simp only [Option.none_or, Option.map_eq_some_iff] at ho
          obtain ⟨src', ho', rfl⟩ := ho
          have := ih hp ho'
          simp only [Option.map_none, Option.none_or, this]
          cases src' with
          | const v => rfl
          | arg p => exact congrArg some (value_pass _ _ _ _ _)

/-- The attribute holds the value of the parameter. -/
def fromArg (c : Chain) (a p : String) : Bool :=
  match origin c a with
  | some (.arg q) => q == p
  | _ => false

theorem fromArg_iff {c : Chain} {a p : String} (h : fromArg c a p = true) :
    origin c a = some (.arg p) := by
  unfold fromArg at h
  split at h
  · rename_i q hq
    rw [hq, eq_of_beq h]
  · simp at h

example : fromArg (priorbandLevel :: hbCustomLevel :: hbPriorLevel :: hbLevel :: shChain) "eta" "eta" = true := by
  decide +kernel

end Verif.Args
