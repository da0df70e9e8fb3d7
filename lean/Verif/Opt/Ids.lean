import Mathlib.Data.Nat.Init
import Mathlib.Tactic.Set

/-!
# Textual trial ids

`str(n)` and `int(s)` on natural numbers, and the ids `"<config>_<rung>"` of the multi-fidelity
optimizers. Strings are lists of characters.
-/

namespace Neps.Ids

/-- The decimal digit of a number below 10. -/
def digitChar (d : Nat) : Char := Char.ofNat (48 + d)

/-- `str(n)`. -/
def natStr (n : Nat) : List Char :=
  if _h : n < 10 then [digitChar n] else natStr (n / 10) ++ [digitChar (n % 10)]
termination_by n
decreasing_by omega

/-- Value of a decimal digit. -/
def digitVal (c : Char) : Option Nat :=
  if 48 ≤ c.toNat ∧ c.toNat ≤ 57 then some (c.toNat - 48) else none

/-- The loop of `int(s)`. Simplification: no sign, blanks or underscores, which the generated ids
do not have. -/
def intGo : Nat → List Char → Option Nat
  | acc, [] => some acc
  | acc, c :: cs =>
    match digitVal c with
    | none => none
    | some d => intGo (10 * acc + d) cs

/-- `int(s)`, an error for the empty string. -/
def pyInt (s : List Char) : Option Nat := if s = [] then none else intGo 0 s

/-- `s.split(sep)` for a separator of one character. -/
def split (sep : Char) : List Char → List (List Char)
  | [] => [[]]
  | c :: cs =>
    if c = sep then [] :: split sep cs
    else match split sep cs with
      | [] => [[c]]
      | w :: ws => (c :: w) :: ws

/-- The id of a multi-fidelity trial, `neps/optimizers/multi_fidelity/successive_halving.py:418,448`. -/
def fmtId (cfg rung : Nat) : List Char := natStr cfg ++ '_' :: natStr rung

/-- `_get_config_id_split` and the conversions to `int`,
`neps/optimizers/multi_fidelity/successive_halving.py:216-220,229,231`: an error unless there are
exactly two parts. -/
def parseId (s : List Char) : Option (Nat × Nat) :=
  match split '_' s with
  | [a, b] =>
    match pyInt a, pyInt b with
    | some c, some r => some (c, r)
    | _, _ => none
  | _ => none

/-! ## Lemmas -/

theorem digitVal_digitChar {d : Nat} (h : d < 10) : digitVal (digitChar d) = some d := by
  have : ∀ d : Fin 10, digitVal (digitChar d.val) = some d.val := by decide
  exact this ⟨d, h⟩

theorem digitChar_ne {d : Nat} (h : d < 10) : digitChar d ≠ '_' := by
  have : ∀ d : Fin 10, digitChar d.val ≠ '_' := by decide
  exact this ⟨d, h⟩

theorem digitChar_isDigit {d : Nat} (h : d < 10) : (digitChar d).isDigit = true := by
  have : ∀ d : Fin 10, (digitChar d.val).isDigit = true := by decide
  exact this ⟨d, h⟩

theorem natStr_ne_nil (n : Nat) : natStr n ≠ [] := by
  rw [natStr]
  split <;> simp

theorem natStr_chars (n : Nat) : ∀ c ∈ natStr n, ∃ d, d < 10 ∧ c = digitChar d := by
  induction n using Nat.strong_induction_on with
  | _ n ih =>
    intro c hc
    rw [natStr] at hc
    split at hc
    · rename_i h
      simp only [List.mem_singleton] at hc
      exact ⟨n, h, hc⟩
    · rcases List.mem_append.1 hc with hc | hc
      · exact ih (n / 10) (by omega) c hc
      · simp only [List.mem_singleton] at hc
        exact ⟨n % 10, by omega, hc⟩

theorem intGo_append (a b : List Char) : ∀ acc, intGo acc (a ++ b) = (intGo acc a).bind (fun n => intGo n b) := by
  induction a with
  | nil => intro acc; rfl
  | cons c a ih =>
    intro acc
    simp only [List.cons_append, intGo]
    cases digitVal c with
    | none => rfl
    | some d => exact ih _

theorem intGo_natStr (n : Nat) : intGo 0 (natStr n) = some n := by
  induction n using Nat.strong_induction_on with
  | _ n ih =>
    rw [natStr]
    split
    · rename_i h
      simp [intGo, digitVal_digitChar h]
    · rw [intGo_append, ih (n / 10) (by omega)]
      simp only [Option.bind_some, intGo, digitVal_digitChar (show n % 10 < 10 by omega)]
      congr 1
      omega

theorem pyInt_natStr (n : Nat) : pyInt (natStr n) = some n := by
  rw [pyInt, if_neg (natStr_ne_nil n), intGo_natStr]

theorem split_append (sep : Char) (a b : List Char) (h : sep ∉ a) :
    split sep (a ++ sep :: b) = a :: split sep b := by
  induction a with
  | nil => simp [split]
  | cons c a ih =>
    have hc : c ≠ sep := fun he => h (by simp [he])
    simp only [List.cons_append, split, if_neg hc]
    rw [ih (fun hm => h (by simp [hm]))]

theorem split_none (sep : Char) (a : List Char) (h : sep ∉ a) : split sep a = [a] := by
  induction a with
  | nil => rfl
  | cons c a ih =>
    have hc : c ≠ sep := fun he => h (by simp [he])
    simp only [split, if_neg hc]
    rw [ih (fun hm => h (by simp [hm]))]

theorem natStr_no_underscore (n : Nat) : '_' ∉ natStr n := by
  intro h
  obtain ⟨d, hd, he⟩ := natStr_chars n _ h
  exact digitChar_ne hd he.symm

theorem natStr_injective {m n : Nat} (h : natStr m = natStr n) : m = n := by
  have := pyInt_natStr m
  rw [h, pyInt_natStr] at this
  exact (Option.some.inj this).symm

/-- The textual id determines the numbers of configuration and rung. -/
theorem parseId_fmtId (cfg rung : Nat) : parseId (fmtId cfg rung) = some (cfg, rung) := by
  simp only [parseId, fmtId, split_append _ _ _ (natStr_no_underscore cfg),
    split_none _ _ (natStr_no_underscore rung), pyInt_natStr]

theorem fmtId_injective {c r c' r' : Nat} (h : fmtId c r = fmtId c' r') : c = c' ∧ r = r' := by
  have := parseId_fmtId c r
  rw [h, parseId_fmtId] at this
  simp only [Option.some.injEq, Prod.mk.injEq] at this
  exact ⟨this.1.symm, this.2.symm⟩

theorem fmtId_chars (cfg rung : Nat) : ∀ c ∈ fmtId cfg rung, c.isDigit = true ∨ c = '_' := by
  intro c hc
  rcases List.mem_append.1 hc with hc | hc
  · obtain ⟨d, hd, rfl⟩ := natStr_chars cfg c hc
    exact Or.inl (digitChar_isDigit hd)
  · rcases List.mem_cons.1 hc with rfl | hc
    · exact Or.inr rfl
    · obtain ⟨d, hd, rfl⟩ := natStr_chars rung c hc
      exact Or.inl (digitChar_isDigit hd)

end Neps.Ids
