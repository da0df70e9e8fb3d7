import Verif.Cli.Spec
import Mathlib.Data.List.Sort
import Mathlib.Order.Basic

/-!
# Lemmas about the command line
-/

namespace Neps.Cli

open Neps.Ids

/-! ## Floats -/

theorem lt_trans' {a b c : PyFloat} (h : PyFloat.lt a b = true) (h' : PyFloat.lt b c = true) :
    PyFloat.lt a c = true := by
  cases a <;> cases b <;> cases c <;> simp_all [PyFloat.lt]
  exact h.trans h'

theorem lt_of_not_lt {x b y : PyFloat} (hb : b ≠ .nan) (h : PyFloat.lt x b = true)
    (h' : PyFloat.lt y b ≠ true) : y = .nan ∨ PyFloat.lt x y = true := by
  cases x <;> cases b <;> cases y <;> simp_all [PyFloat.lt]
  exact lt_of_lt_of_le h h'

theorem ne_nan_of_lt {x b : PyFloat} (h : PyFloat.lt x b = true) : x ≠ .nan := by
  rintro rfl; cases b <;> simp [PyFloat.lt] at h

theorem lt_pinf_iff {x : PyFloat} : PyFloat.lt x .pinf = true ↔ x ≠ .nan ∧ x ≠ .pinf := by
  cases x <;> simp [PyFloat.lt]

theorem lt_or_ge' {x y : PyFloat} (hx : x ≠ .nan) (hy : y ≠ .nan) :
    PyFloat.lt x y = true ∨ PyFloat.le y x = true := by
  cases x <;> cases y <;> simp_all [PyFloat.lt, PyFloat.le]
  exact lt_or_ge _ _

theorem le_refl' {x : PyFloat} (h : x ≠ .nan) : PyFloat.le x x = true := by
  cases x <;> simp_all [PyFloat.le]

theorem pinf_le {x : PyFloat} (h : PyFloat.le .pinf x = true) : x = .pinf := by
  cases x <;> simp_all [PyFloat.le]

theorem le_trans' {a b c : PyFloat} (h : PyFloat.le a b = true) (h' : PyFloat.le b c = true) :
    PyFloat.le a c = true := by
  cases a <;> cases b <;> cases c <;> simp_all [PyFloat.le]
  exact h.trans h'

theorem lt_of_lt_of_le' {a b c : PyFloat} (h : PyFloat.lt a b = true) (h' : PyFloat.le b c = true) :
    PyFloat.lt a c = true := by
  cases a <;> cases b <;> cases c <;> simp_all [PyFloat.le, PyFloat.lt]
  exact lt_of_lt_of_le h h'

theorem le_of_lt' {a b : PyFloat} (h : PyFloat.lt a b = true) : PyFloat.le a b = true := by
  cases a <;> cases b <;> simp_all [PyFloat.le, PyFloat.lt]
  exact h.le

theorem le_antisymm' {a b : PyFloat} (h : PyFloat.le a b = true) (h' : PyFloat.le b a = true) :
    a = b := by
  cases a <;> cases b <;> simp_all [PyFloat.le]
  exact le_antisymm h h'

/-! ## `int` of ids -/

theorem isWhitespace_digitChar {d : Nat} (h : d < 10) : (digitChar d).isWhitespace = false := by
  have : ∀ d : Fin 10, (digitChar d.val).isWhitespace = false := by decide
  exact this ⟨d, h⟩

theorem dropWhile_of_all_false {α} {p : α → Bool} {l : List α} (h : ∀ a ∈ l, p a = false) :
    l.dropWhile p = l := by
  cases l with
  | nil => rfl
  | cons a l => simp [List.dropWhile, h a]

theorem strip_id {s : List Char} (h : ∀ c ∈ s, c.isWhitespace = false) : strip s = s := by
  rw [strip, dropWhile_of_all_false h, dropWhile_of_all_false (by simpa using h),
    List.reverse_reverse]

theorem intDigits_digits (a : List Char) (ha : ∀ c ∈ a, ∃ d, d < 10 ∧ c = digitChar d) :
    ∀ acc prev b, a ≠ [] ∨ prev = true →
      intDigits acc prev (a ++ b) = (intGo acc a).bind (fun n => intDigits n true b) := by
  induction a with
  | nil => intro acc prev b h; simp at h; simp [intGo, h]
  | cons c a ih =>
    intro acc prev b _
    obtain ⟨d, hd, rfl⟩ := ha c (by simp)
    simp only [List.cons_append, intDigits, if_neg (digitChar_ne hd), digitVal_digitChar hd, intGo]
    exact ih (fun c hc => ha c (by simp [hc])) _ _ _ (Or.inr rfl)

theorem pyInt_of_digit {s : List Char} {d : Nat} {r : List Char} (hs : s = digitChar d :: r)
    (hd : d < 10) (hw : ∀ c ∈ s, c.isWhitespace = false) :
    pyInt s = (intDigits 0 false s).map (fun n => (n : Int)) := by
  have h1 : ∀ d : Fin 10, digitChar d.val ≠ '-' ∧ digitChar d.val ≠ '+' := by decide
  obtain ⟨hm, hp⟩ := h1 ⟨d, hd⟩
  rw [pyInt, strip_id hw]
  subst hs
  split
  · rename_i h; exact absurd (List.cons.inj h).1 hm
  · rename_i h; exact absurd (List.cons.inj h).1 hp
  · rfl

theorem natStr_cons (n : Nat) : ∃ d r, d < 10 ∧ natStr n = digitChar d :: r := by
  obtain ⟨c, r, h⟩ := List.exists_cons_of_ne_nil (natStr_ne_nil n)
  obtain ⟨d, hd, rfl⟩ := natStr_chars n c (by simp [h])
  exact ⟨d, r, hd, h⟩

theorem natStr_noWs (n : Nat) : ∀ c ∈ natStr n, c.isWhitespace = false := by
  intro c hc
  obtain ⟨d, hd, rfl⟩ := natStr_chars n c hc
  exact isWhitespace_digitChar hd

theorem pyInt_natStr' (n : Nat) : pyInt (natStr n) = some (n : Int) := by
  obtain ⟨d, r, hd, h⟩ := natStr_cons n
  rw [pyInt_of_digit h hd (natStr_noWs n)]
  have := intDigits_digits (natStr n) (natStr_chars n) 0 false [] (Or.inl (natStr_ne_nil n))
  rw [List.append_nil] at this
  rw [this, intGo_natStr]
  rfl

theorem intGo_acc (a : List Char) (ha : ∀ c ∈ a, ∃ d, d < 10 ∧ c = digitChar d) :
    ∀ acc, intGo acc a = (intGo 0 a).map (fun n => acc * 10 ^ a.length + n) := by
  induction a with
  | nil => intro acc; simp [intGo]
  | cons c a ih =>
    intro acc
    obtain ⟨d, hd, rfl⟩ := ha c (by simp)
    simp only [intGo, digitVal_digitChar hd]
    rw [ih (fun c hc => ha c (by simp [hc])), ih (fun c hc => ha c (by simp [hc])) (10 * 0 + d)]
    rw [Option.map_map]
    congr 1
    funext n
    simp only [Function.comp, List.length_cons, pow_succ]
    ring

theorem pyInt_fmtId (c r : Nat) :
    pyInt (fmtId c r) = some ((c * 10 ^ (natStr r).length + r : Nat) : Int) := by
  obtain ⟨d, l, hd, h⟩ := natStr_cons c
  have hw : ∀ x ∈ fmtId c r, x.isWhitespace = false := by
    intro x hx
    rcases List.mem_append.1 hx with hx | hx
    · exact natStr_noWs c x hx
    · rcases List.mem_cons.1 hx with rfl | hx
      · decide
      · exact natStr_noWs r x hx
  rw [pyInt_of_digit (d := d) (r := l ++ '_' :: natStr r) (by simp [fmtId, h]) hd hw, fmtId,
    intDigits_digits _ (natStr_chars c) _ _ _ (Or.inl (natStr_ne_nil c)), intGo_natStr]
  simp only [Option.bind_some, intDigits, if_true]
  have := intDigits_digits (natStr r) (natStr_chars r) c false [] (Or.inl (natStr_ne_nil r))
  rw [List.append_nil] at this
  rw [this, intGo_acc _ (natStr_chars r), intGo_natStr]
  rfl

theorem natStr_length_lt_ten {r : Nat} (h : r < 10) : (natStr r).length = 1 := by
  rw [natStr, dif_pos h]; rfl

/-! ## The incumbents -/

theorem keyed_ok (num : Trial → Int) :
    ∀ ts : List Trial, (∀ t ∈ ts, pyInt t.id.toList = some (num t)) →
      keyed ts = .ok (ts.map (fun t => (num t, t)))
  | [], _ => rfl
  | t :: ts, h => by
    simp only [keyed, h t (by simp), keyed_ok num ts (fun t ht => h t (by simp [ht])),
      List.map_cons]

instance : Std.Total (fun a b : Int × Trial => a.1 ≤ b.1) := ⟨fun a b => Int.le_total a.1 b.1⟩
instance : IsTrans (Int × Trial) (fun a b => a.1 ≤ b.1) := ⟨fun _ _ _ => Int.le_trans⟩

/-- Sorting by a number that is different for different trials. -/
theorem sorted_ids (num : Trial → Int) (ts : List Trial)
    (hn : (ts.map num).Nodup) :
    let l := (sortKeyed (ts.map (fun t => (num t, t)))).map Prod.snd
    l.Perm ts ∧ l.Pairwise (fun a b => num a < num b) := by
  intro l
  have hp : (sortKeyed (ts.map (fun t => (num t, t)))).Perm (ts.map (fun t => (num t, t))) :=
    List.perm_insertionSort _ _
  have hs : (sortKeyed (ts.map (fun t => (num t, t)))).Pairwise (fun a b => a.1 ≤ b.1) :=
    List.pairwise_insertionSort _ _
  have hpl : l.Perm ts := by
    have := hp.map Prod.snd
    simpa [l, List.map_map, Function.comp_def] using this
  refine ⟨hpl, ?_⟩
  have hk : ∀ p ∈ sortKeyed (ts.map (fun t => (num t, t))), p.1 = num p.2 := by
    intro p hm
    obtain ⟨t, _, rfl⟩ := List.mem_map.1 (hp.mem_iff.1 hm)
    rfl
  have hnd : (l.map num).Nodup := (hpl.map num).nodup_iff.2 hn
  have hle : l.Pairwise (fun a b => num a ≤ num b) := by
    rw [List.pairwise_map]
    exact hs.imp_of_mem (fun {a b} ha hb h => by rw [← hk a ha, ← hk b hb]; exact h)
  have hne : l.Pairwise (fun a b => num a ≠ num b) := List.pairwise_map.1 hnd
  exact (hle.and hne).imp (fun {a b} h => lt_of_le_of_ne h.1 h.2)

/-- The loop over the trials finds the records below `best`. -/
theorem incumbents_spec (num : Trial → Int) :
    ∀ (l : List Trial) (best : PyFloat), best ≠ .nan →
      (∀ t ∈ l, ∀ r, t.report = some r → r.loss.isSome) →
      l.Pairwise (fun a b => num a < num b) →
      ∃ res, incumbents best l = .ok res ∧ res.Sublist l ∧
        ∀ t ∈ l, t ∈ res ↔ ∃ x, lossIn t = some x ∧ PyFloat.lt x best = true ∧
          ∀ s ∈ l, num s < num t → ∀ y, lossIn s = some y → y = .nan ∨ PyFloat.lt x y = true
  | [], best, _, _, _ => ⟨[], rfl, List.Sublist.refl _, by simp⟩
  | t₀ :: ts, best, hb, hl, hs => by
    obtain ⟨h0, hs'⟩ := List.pairwise_cons.1 hs
    have hl' : ∀ t ∈ ts, ∀ r, t.report = some r → r.loss.isSome :=
      fun t ht => hl t (by simp [ht])
    have hnot : t₀ ∉ ts := fun h => lt_irrefl _ (h0 _ h)
    -- the case in which the first trial is no record
    have skip : (∀ y, lossIn t₀ = some y → PyFloat.lt y best ≠ true) →
        incumbents best (t₀ :: ts) = incumbents best ts →
        ∃ res, incumbents best (t₀ :: ts) = .ok res ∧ res.Sublist (t₀ :: ts) ∧
        ∀ t ∈ t₀ :: ts, t ∈ res ↔ ∃ x, lossIn t = some x ∧ PyFloat.lt x best = true ∧
          ∀ s ∈ t₀ :: ts, num s < num t → ∀ y, lossIn s = some y → y = .nan ∨ PyFloat.lt x y = true := by
      intro hno he
      obtain ⟨res, hr, hsub, hiff⟩ := incumbents_spec num ts best hb hl' hs'
      refine ⟨res, by rw [he, hr], hsub.cons _, ?_⟩
      intro t ht
      rcases List.mem_cons.1 ht with rfl | ht
      · constructor
        · intro h; exact absurd (hsub.subset h) hnot
        · rintro ⟨x, hx, hlt, _⟩; exact absurd hlt (hno x hx)
      · rw [hiff t ht]
        constructor
        · rintro ⟨x, hx, hlt, h⟩
          refine ⟨x, hx, hlt, ?_⟩
          intro s hs hn y hy
          rcases List.mem_cons.1 hs with rfl | hs
          · exact lt_of_not_lt hb hlt (hno y hy)
          · exact h s hs hn y hy
        · rintro ⟨x, hx, hlt, h⟩
          exact ⟨x, hx, hlt, fun s hs => h s (by simp [hs])⟩
    cases hrep : t₀.report with
    | none =>
      refine skip ?_ (by simp only [incumbents, hrep])
      intro y hy; simp [lossIn, hrep] at hy
    | some r =>
      obtain ⟨x₀, hx₀⟩ := Option.isSome_iff_exists.1 (hl t₀ (by simp) r hrep)
      have hloss : lossIn t₀ = some x₀ := by simp [lossIn, hrep, hx₀]
      by_cases hlt : PyFloat.lt x₀ best = true
      · obtain ⟨res, hr, hsub, hiff⟩ := incumbents_spec num ts x₀ (ne_nan_of_lt hlt) hl' hs'
        refine ⟨t₀ :: res, by simp only [incumbents, hrep, hx₀, if_pos hlt, hr],
          List.Sublist.cons_cons _ hsub, ?_⟩
        intro t ht
        rcases List.mem_cons.1 ht with rfl | ht
        · refine ⟨fun _ => ⟨x₀, hloss, hlt, ?_⟩, fun _ => by simp⟩
          intro s hs hn
          rcases List.mem_cons.1 hs with rfl | hs
          · exact absurd hn (lt_irrefl _)
          · exact absurd (h0 s hs) (lt_asymm hn)
        · have hne : t ≠ t₀ := fun h => hnot (h ▸ ht)
          rw [List.mem_cons, or_iff_right hne, hiff t ht]
          constructor
          · rintro ⟨x, hx, hxlt, h⟩
            refine ⟨x, hx, lt_trans' hxlt hlt, ?_⟩
            intro s hs hn y hy
            rcases List.mem_cons.1 hs with rfl | hs
            · rw [hloss] at hy; cases hy; exact Or.inr hxlt
            · exact h s hs hn y hy
          · rintro ⟨x, hx, _, h⟩
            refine ⟨x, hx, ?_, fun s hs => h s (by simp [hs])⟩
            rcases h t₀ (by simp) (h0 t ht) x₀ hloss with h | h
            · exact absurd h (ne_nan_of_lt hlt)
            · exact h
      · refine skip ?_ (by simp only [incumbents, hrep, hx₀, if_neg hlt])
        intro y hy; rw [hloss] at hy; cases hy; exact hlt

end Neps.Cli
