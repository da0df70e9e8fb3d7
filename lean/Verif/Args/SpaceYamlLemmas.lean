import Verif.Args.SpaceYamlSpec
import Verif.Args.DictLemmas
import Verif.Args.SettingsLemmas
import Mathlib.Tactic.FieldSimp

/-!
# Lemmas on YAML descriptions
-/

namespace Verif.Args

open Verif.Space

/-! ## Scientific notation -/

theorem mem_takeWhile {p : Char → Bool} {cs : List Char} {c : Char} (h : c ∈ cs.takeWhile p) :
    p c = true := by
  have := List.all_takeWhile (l := cs) (p := p)
  rw [List.all_eq_true] at this
  exact this c h

theorem digits1_some {cs r : List Char} (h : digits1 cs = some r) :
    ∃ ds, Digits ds ∧ cs = ds ++ r := by
  unfold digits1 at h
  split_ifs at h with h1
  have h := Option.some.inj h
  refine ⟨cs.takeWhile Char.isDigit, ⟨h1, fun c hc => mem_takeWhile hc⟩, ?_⟩
  rw [← h, List.takeWhile_append_dropWhile]

theorem digits1_append {ds r : List Char} (h : Digits ds)
    (hr : ∀ c r', r = c :: r' → c.isDigit = false) : digits1 (ds ++ r) = some r := by
  have h1 : r.takeWhile Char.isDigit = [] := by
    cases r with
    | nil => rfl
    | cons c r' => simp [hr c r' rfl]
  have h2 : r.dropWhile Char.isDigit = r := by
    cases r with
    | nil => rfl
    | cons c r' => simp [hr c r' rfl]
  unfold digits1
  rw [List.takeWhile_append_of_pos h.2, List.dropWhile_append_of_pos h.2, h1, h2, if_neg]
  simpa using h.1

theorem minus_sign (cs : List Char) : ∃ s, Sign s ∧ cs = s ++ minus cs := by
  unfold minus
  split
  · exact ⟨['-'], Or.inr rfl, rfl⟩
  · exact ⟨[], Or.inl rfl, rfl⟩

theorem minus_append {s ds r : List Char} (hs : Sign s) (hd : Digits ds) :
    minus (s ++ (ds ++ r)) = ds ++ r := by
  rcases hs with rfl | rfl
  · obtain ⟨h1, h2⟩ := hd
    cases ds with
    | nil => exact absurd rfl h1
    | cons c ds =>
      have : c ≠ '-' := by
        intro h
        have := h2 c (List.mem_cons_self ..)
        rw [h] at this
        exact absurd this (by decide)
      simp only [List.nil_append, List.cons_append]
      unfold minus
      split
      · rename_i h
        exact absurd (List.cons.inj h).1 this
      · rfl
  · rfl

theorem exponent_iff {cs : List Char} : exponent cs = true ↔
    ∃ s ds nl, cs = s ++ ds ++ nl ∧ Sign s ∧ Digits ds ∧ (nl = [] ∨ nl = ['\n']) := by
  constructor
  · intro h
    unfold exponent at h
    obtain ⟨s, hs, he⟩ := minus_sign cs
    cases hd : digits1 (minus cs) with
    | none => rw [hd] at h; cases h
    | some r =>
      obtain ⟨ds, hds, he'⟩ := digits1_some hd
      rw [hd] at h
      refine ⟨s, ds, r, by rw [he, he', List.append_assoc], hs, hds, ?_⟩
      match r, h with
      | [], _ => exact Or.inl rfl
      | [c], h => right; simp only [beq_iff_eq] at h; rw [h]
      | _ :: _ :: _, h => cases h
  · rintro ⟨s, ds, nl, rfl, hs, hd, hn⟩
    unfold exponent
    rw [List.append_assoc, minus_append hs hd]
    rcases hn with rfl | rfl
    · rw [digits1_append hd (by simp)]
    · rw [digits1_append hd]
      · rfl
      · intro c r' h
        rw [← (List.cons.inj h).1]; decide

theorem matchesSci_iff {cs : List Char} : matchesSci cs = true ↔
    ∃ sign whole frac e sign' exp nl, cs = sign ++ whole ++ frac ++ [e] ++ sign' ++ exp ++ nl ∧
    Sign sign ∧ Digits whole ∧ (frac = [] ∨ ∃ ds, frac = '.' :: ds ∧ Digits ds) ∧
    (e = 'e' ∨ e = 'E') ∧ Sign sign' ∧ Digits exp ∧ (nl = [] ∨ nl = ['\n']) := by
  constructor
  · intro h
    unfold matchesSci at h
    obtain ⟨s, hs, he⟩ := minus_sign cs
    cases hd : digits1 (minus cs) with
    | none => rw [hd] at h; cases h
    | some r =>
      obtain ⟨ds, hds, he'⟩ := digits1_some hd
      rw [hd] at h
      simp only [Option.bind_some] at h
      cases hf : fraction r with
      | none => rw [hf] at h; cases h
      | some r2 =>
        rw [hf] at h
        cases r2 with
        | nil => cases h
        | cons c rest =>
          simp only [Bool.and_eq_true, Bool.or_eq_true, beq_iff_eq] at h
          obtain ⟨s', ds', nl, e1, e2, e3, e4⟩ := exponent_iff.mp h.2
          have : ∃ frac, r = frac ++ c :: rest ∧ (frac = [] ∨ ∃ ds, frac = '.' :: ds ∧ Digits ds) := by
            unfold fraction at hf
            split at hf
            · obtain ⟨fs, hfs, hfe⟩ := digits1_some hf
              exact ⟨'.' :: fs, by rw [hfe]; rfl, Or.inr ⟨fs, rfl, hfs⟩⟩
            · exact ⟨[], by rw [Option.some.inj hf]; rfl, Or.inl rfl⟩
          obtain ⟨frac, hr, hfrac⟩ := this
          refine ⟨s, ds, frac, c, s', ds', nl, ?_, hs, hds, hfrac, h.1, e2, e3, e4⟩
          rw [he, he', hr, e1]
          simp [List.append_assoc]
  · rintro ⟨sign, whole, frac, e, sign', exp, nl, rfl, hs, hw, hf, he, hs', hx, hn⟩
    have hassoc : sign ++ whole ++ frac ++ [e] ++ sign' ++ exp ++ nl =
        sign ++ (whole ++ (frac ++ (e :: (sign' ++ exp ++ nl)))) := by
      simp [List.append_assoc]
    have hne : e.isDigit = false := by rcases he with rfl | rfl <;> decide
    have hexp : exponent (sign' ++ exp ++ nl) = true :=
      exponent_iff.mpr ⟨sign', exp, nl, rfl, hs', hx, hn⟩
    unfold matchesSci
    rw [hassoc, minus_append hs hw]
    have hec : (e == 'e' || e == 'E') = true := by rcases he with rfl | rfl <;> decide
    have hed : e ≠ '.' := by rcases he with rfl | rfl <;> decide
    rcases hf with rfl | ⟨ds, rfl, hds⟩
    · rw [List.nil_append, digits1_append hw]
      · simp only [Option.bind_some]
        have : fraction (e :: (sign' ++ exp ++ nl)) = some (e :: (sign' ++ exp ++ nl)) := by
          unfold fraction
          split
          · rename_i h
            exact absurd (List.cons.inj h).1 hed
          · rfl
        rw [this]
        simp only [hec, hexp, Bool.and_self]
      · intro c r' h
        rw [← (List.cons.inj h).1]; exact hne
    · rw [digits1_append hw]
      · simp only [Option.bind_some, List.cons_append, fraction]
        rw [digits1_append hds]
        · simp only [hec, hexp, Bool.and_self]
        · intro c r' h
          rw [← (List.cons.inj h).1]; exact hne
      · intro c r' h
        rw [List.cons_append] at h
        rw [← (List.cons.inj h).1]; decide

theorem isSci_iff {s : String} : isSci s = true ↔ Sci s := by
  unfold isSci Sci
  exact matchesSci_iff

theorem isSci_eq_false {s : String} : isSci s = false ↔ ¬ Sci s := by
  rw [← isSci_iff]; simp

/-! ## Scalars -/

theorem isInt_iff {v : Py} : v.isInt = true ↔ IntLike v := by
  constructor
  · intro h
    match v, h with
    | .int n, _ => exact .int n
    | .bool b, _ => exact .bool b
  · rintro (_ | _) <;> rfl

theorem isFloat_iff {v : Py} : v.isFloat = true ↔ FloatLike v := by
  constructor
  · intro h
    match v, h with
    | .float n, _ => exact .float n
  · rintro ⟨⟩; rfl

theorem convert_str (parse : String → Option ℚ) (s : String) : convert parse (.str s) =
    match parse s with
    | some x => .ok x (isSci s)
    | none => .valueError := rfl

theorem convert_ok {parse : String → Option ℚ} {v : Py} {x : ℚ} {f : Bool} :
    convert parse v = .ok x f ↔ Num parse v x ∧ (f = true ↔ SciText v) := by
  constructor
  · intro h
    match v, h with
    | .bool true, h => cases h; exact ⟨.true, by simp; rintro ⟨⟩⟩
    | .bool false, h => cases h; exact ⟨.false, by simp; rintro ⟨⟩⟩
    | .int n, h => cases h; exact ⟨.int n, by simp; rintro ⟨⟩⟩
    | .float x, h => cases h; exact ⟨.float x, by simp; rintro ⟨⟩⟩
    | .str s, h =>
      rw [convert_str] at h
      cases hp : parse s with
      | none => rw [hp] at h; cases h
      | some y =>
        rw [hp] at h
        cases h
        refine ⟨.str hp, ?_⟩
        rw [isSci_iff]
        exact ⟨.str, fun ⟨h⟩ => h⟩
  · rintro ⟨h, hf⟩
    cases h with
    | true => cases f; · rfl
              · cases hf.mp rfl
    | false => cases f; · rfl
               · cases hf.mp rfl
    | int n => cases f; · rfl
               · cases hf.mp rfl
    | float n => cases f; · rfl
                 · cases hf.mp rfl
    | @str s x h =>
      rw [convert_str, h]
      simp only [Conv.ok.injEq, true_and]
      rw [Bool.eq_iff_iff, isSci_iff, hf]
      exact ⟨.str, fun ⟨h⟩ => h⟩

theorem Num.unique {parse : String → Option ℚ} {v : Py} {x y : ℚ} (h : Num parse v x)
    (h' : Num parse v y) : x = y := by
  cases h <;> cases h' <;> first | rfl | (rename_i h1 h2; rw [h1] at h2; exact Option.some.inj h2)

theorem Scalar.unique {parse : String → Option ℚ} {v : Py} {x y : Val} (h : Scalar parse v x)
    (h' : Scalar parse v y) : x = y := by
  cases h with
  | sci h1 h2 =>
    cases h' with
    | sci h3 h4 => rw [h2] at h4; rw [Option.some.inj h4]
    | text h3 => exact absurd ⟨h1, by rw [h2]; rfl⟩ h3
  | text h1 =>
    cases h' with
    | sci h3 h4 => exact absurd ⟨h3, by rw [h4]; rfl⟩ h1
    | text => rfl
  | _ => cases h'; rfl

/-- `convertSci` followed by the constructor's conversion is the specified scalar. -/
theorem scalar_iff {parse : String → Option ℚ} {v : Py} {x : Val} :
    (convertSci parse v).bind Py.val = some x ↔ Scalar parse v x := by
  constructor
  · intro h
    match v, h with
    | .bool true, h => cases h; simpa using Scalar.true
    | .bool false, h => cases h; simpa using Scalar.false
    | .int n, h => cases h; exact .int n
    | .float x, h => cases h; exact .float x
    | .str s, h =>
      unfold convertSci at h
      rw [convert_str] at h
      cases hp : parse s with
      | none => rw [hp] at h; cases h; exact .text (by simp [hp])
      | some y =>
        rw [hp] at h
        simp only at h
        cases hs : isSci s with
        | true => rw [hs] at h; cases h; exact .sci (isSci_iff.mp hs) hp
        | false => rw [hs] at h; cases h; exact .text (fun h' => isSci_eq_false.mp hs h'.1)
    | .null, h => cases h
    | .list _, h => cases h
    | .dict _, h => cases h
    | .obj _, h => cases h
  · intro h
    cases h with
    | true => simp [convertSci, convert, Py.val]
    | false => simp [convertSci, convert, Py.val]
    | int n => simp [convertSci, convert, Py.val]
    | float n => simp [convertSci, convert, Py.val]
    | sci h1 h2 => simp [convertSci, convert, h2, isSci_iff.mpr h1, Py.val]
    | @text s h1 =>
      unfold convertSci
      rw [convert_str]
      cases hp : parse s with
      | none => simp [Py.val]
      | some y =>
        have : isSci s = false := isSci_eq_false.mpr fun h => h1 ⟨h, by rw [hp]; rfl⟩
        simp [Py.val, this]

/-- A converted scalar is not changed by another conversion. -/
theorem convertSci_idem {parse : String → Option ℚ} {v w : Py} (h : convertSci parse v = some w) :
    convertSci parse w = some w := by
  match v, h with
  | .bool b, h => cases h; simp [convertSci, convert]
  | .int n, h => cases h; simp [convertSci, convert]
  | .float x, h => cases h; simp [convertSci, convert]
  | .str s, h =>
    have h0 := h
    unfold convertSci at h
    rw [convert_str] at h
    cases hp : parse s with
    | none => rw [hp] at h; cases h; exact h0
    | some y =>
      rw [hp] at h
      simp only at h
      cases hs : isSci s with
      | true => rw [hs] at h; cases h; simp [convertSci, convert]
      | false => rw [hs] at h; cases h; exact h0
  | .null, h => cases h
  | .list _, h => cases h
  | .dict _, h => cases h
  | .obj _, h => cases h

theorem isScalar_of_convertSci {parse : String → Option ℚ} {v w : Py}
    (h : convertSci parse v = some w) : v.isScalar = true ∧ w.isScalar = true := by
  match v, h with
  | .bool b, h => cases h; exact ⟨rfl, rfl⟩
  | .int n, h => cases h; exact ⟨rfl, rfl⟩
  | .float x, h => cases h; exact ⟨rfl, rfl⟩
  | .str s, h =>
    refine ⟨rfl, ?_⟩
    unfold convertSci at h
    rw [convert_str] at h
    cases hp : parse s with
    | none => rw [hp] at h; cases h; rfl
    | some y =>
      rw [hp] at h
      simp only at h
      cases hs : isSci s with
      | true => rw [hs] at h; cases h; rfl
      | false => rw [hs] at h; cases h; rfl
  | .null, h => cases h
  | .list _, h => cases h
  | .dict _, h => cases h
  | .obj _, h => cases h

theorem scalar_exists {parse : String → Option ℚ} {v : Py} (h : v.isScalar = true) :
    ∃ x, Scalar parse v x := by
  match v, h with
  | .bool true, _ => exact ⟨_, .true⟩
  | .bool false, _ => exact ⟨_, .false⟩
  | .int n, _ => exact ⟨_, .int n⟩
  | .float x, _ => exact ⟨_, .float x⟩
  | .str s, _ =>
    by_cases h : Sci s ∧ (parse s).isSome
    · obtain ⟨x, hx⟩ := Option.isSome_iff_exists.mp h.2
      exact ⟨_, .sci h.1 hx⟩
    · exact ⟨_, .text h⟩

theorem scalar_isScalar {parse : String → Option ℚ} {v : Py} {x : Val} (h : Scalar parse v x) :
    v.isScalar = true := by
  cases h <;> rfl

end Verif.Args
