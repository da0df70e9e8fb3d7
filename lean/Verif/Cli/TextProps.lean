import Verif.Cli.Lemmas

/-!
# C100, C101: arguments and durations as texts
-/

namespace Neps.Cli

open Neps.Ids

/-! ## C100: `--searcher-kwargs` -/

theorem splitEq_none (s : List Char) : splitEq s = none ↔ '=' ∉ s := by
  induction s with
  | nil => simp [splitEq]
  | cons c s ih =>
    by_cases h : c = '='
    · simp [splitEq, h]
    · simp [splitEq, h, ih, Ne.symm h]

theorem splitEq_append (k v : List Char) (hk : '=' ∉ k) : splitEq (k ++ '=' :: v) = some (k, v) := by
  induction k with
  | nil => simp [splitEq]
  | cons c k ih =>
    have : c ≠ '=' := fun h => hk (by simp [h])
    simp [splitEq, this, ih (fun h => hk (by simp [h]))]

theorem splitEq_some {s k v : List Char} (h : splitEq s = some (k, v)) :
    s = k ++ '=' :: v ∧ '=' ∉ k := by
  induction s generalizing k with
  | nil => simp [splitEq] at h
  | cons c s ih =>
    by_cases hc : c = '='
    · simp [splitEq, hc] at h
      obtain ⟨rfl, rfl⟩ := h
      simp [hc]
    · simp only [splitEq, if_neg hc, Option.map_eq_some_iff, Prod.mk.injEq] at h
      obtain ⟨⟨a, b⟩, hab, rfl, rfl⟩ := h
      obtain ⟨rfl, h2⟩ := ih hab
      simp [h2, Ne.symm hc]

/-- **C100**: `--searcher-kwargs` is refused exactly if one of the items has no `=`. -/
theorem C100_refused (fs : String → Option PyFloat) (items : List String)
    (acc : List (String × PyVal)) :
    (∃ e, parseKv fs items acc = .error e) ↔ ∃ i ∈ items, '=' ∉ i.toList := by
  induction items generalizing acc with
  | nil => simp [parseKv]
  | cons i items ih =>
    simp only [parseKv]
    cases h : splitEq i.toList with
    | none => simp [(splitEq_none _).1 h]
    | some p =>
      obtain ⟨k, v⟩ := p
      have : '=' ∈ i.toList := by
        obtain ⟨h1, _⟩ := splitEq_some h
        simp [h1]
      simp [ih, this]

/-- Keys that the remaining items do not set keep their value. -/
theorem parseKv_keep (fs : String → Option PyFloat) (key : List Char) (hk : '=' ∉ key) :
    ∀ (items : List String) (acc d : List (String × PyVal)),
      (∀ i ∈ items, ¬ (key ++ ['=']) <+: i.toList) → parseKv fs items acc = .ok d →
      Dict.get d (String.ofList key) = Dict.get acc (String.ofList key)
  | [], acc, d, _, h => by simp [parseKv] at h; rw [h]
  | i :: items, acc, d, hn, h => by
    simp only [parseKv] at h
    cases hs : splitEq i.toList with
    | none => simp [hs] at h
    | some p =>
      obtain ⟨k, v⟩ := p
      simp only [hs] at h
      rw [parseKv_keep fs key hk items _ d (fun i hi => hn i (by simp [hi])) h]
      have hne : String.ofList key ≠ String.ofList k := by
        intro he
        rw [String.ofList_inj] at he
        subst he
        refine hn i (by simp) ⟨v, ?_⟩
        rw [(splitEq_some hs).1]
        simp
      rw [Dict.get_set, if_neg hne]

/-- **C100**: the value of a key is what stands after the first `=` of the last item that begins with
that key. -/
theorem C100_last_wins (fs : String → Option PyFloat) (before after : List String) (item : String)
    (key value : List Char) (acc d : List (String × PyVal)) (hk : '=' ∉ key)
    (hi : item.toList = key ++ '=' :: value)
    (hn : ∀ i ∈ after, ¬ (key ++ ['=']) <+: i.toList)
    (h : parseKv fs (before ++ item :: after) acc = .ok d) :
    Dict.get d (String.ofList key) = some (convertValue fs value) := by
  induction before generalizing acc with
  | nil =>
    simp only [List.nil_append, parseKv, hi, splitEq_append key value hk] at h
    rw [parseKv_keep fs key hk after _ d hn h, Dict.get_set, if_pos rfl]
  | cons b before ih =>
    simp only [List.cons_append, parseKv] at h
    cases hs : splitEq b.toList with
    | none => simp [hs] at h
    | some p => simp only [hs] at h; exact ih _ h

theorem mem_lower {c : Char} {s : List Char} (h : c ∈ lower s) : ∃ d ∈ s, d.toLower = c := by
  simpa [lower] using h

theorem convert_true (fs : String → Option PyFloat) {v : List Char} (h : lower v = "true".toList) :
    convertValue fs v = .bool true := by rw [convertValue, if_pos h]

theorem convert_false (fs : String → Option PyFloat) {v : List Char} (h : lower v ≠ "true".toList)
    (h' : lower v = "false".toList) : convertValue fs v = .bool false := by
  rw [convertValue, if_neg h, if_pos h']

theorem convert_plain (fs : String → Option PyFloat) {v : List Char} (h : lower v ≠ "true".toList)
    (h' : lower v ≠ "false".toList) (hd : '.' ∉ v) (he : 'e' ∉ lower v) :
    convertValue fs v =
      match pyInt v with
      | some n => .int n
      | none => .str (String.ofList v) := by
  rw [convertValue, if_neg h, if_neg h', if_neg (by simp [hd, he])]
  cases pyInt v <;> rfl

/-- The characters of numbers do not spell `true` or `false`. -/
theorem not_word {s : List Char} {c : Char} (hc : c ∈ s) (h : c.toLower = c)
    (hw : c ∉ "true".toList ∧ c ∉ "false".toList) :
    lower s ≠ "true".toList ∧ lower s ≠ "false".toList := by
  have : c ∈ lower s := List.mem_map.2 ⟨c, hc, h⟩
  exact ⟨fun he => hw.1 (he ▸ this), fun he => hw.2 (he ▸ this)⟩

theorem digit_facts : ∀ d : Fin 10, (digitChar d.val).toLower = digitChar d.val ∧
    digitChar d.val ∉ "true".toList ∧ digitChar d.val ∉ "false".toList ∧ digitChar d.val ≠ '.' ∧
    digitChar d.val ≠ 'e' := by decide +kernel

theorem convert_digits (fs : String → Option PyFloat) (s : List Char) (n : Int)
    (hs : ∃ d, d < 10 ∧ digitChar d ∈ s)
    (hc : ∀ c ∈ s, c = '-' ∨ ∃ d, d < 10 ∧ c = digitChar d) (hp : pyInt s = some n) :
    convertValue fs s = .int n := by
  obtain ⟨d, hd, hm⟩ := hs
  obtain ⟨h1, h2, h3, _⟩ := digit_facts ⟨d, hd⟩
  obtain ⟨ht, hf⟩ := not_word hm h1 ⟨h2, h3⟩
  have hdot : '.' ∉ s := by
    intro h
    rcases hc _ h with h | ⟨d, hd, h⟩
    · exact absurd h (by decide)
    · exact (digit_facts ⟨d, hd⟩).2.2.2.1 h.symm
  have he : 'e' ∉ lower s := by
    intro h
    obtain ⟨c, hcm, hl⟩ := mem_lower h
    rcases hc c hcm with rfl | ⟨d, hd, rfl⟩
    · exact absurd hl (by decide +kernel)
    · rw [(digit_facts ⟨d, hd⟩).1] at hl
      exact (digit_facts ⟨d, hd⟩).2.2.2.2 hl
  simp only [convertValue, if_neg ht, if_neg hf, hdot, he, or_self, if_false, hp]

theorem pyInt_intStr (i : Int) : pyInt (intStr i) = some i := by
  cases i with
  | ofNat n => exact pyInt_natStr' n
  | negSucc n =>
    have hw : ∀ c ∈ '-' :: natStr (n + 1), c.isWhitespace = false := by
      intro c hc
      rcases List.mem_cons.1 hc with rfl | hc
      · decide
      · exact natStr_noWs _ c hc
    have := intDigits_digits (natStr (n + 1)) (natStr_chars _) 0 false []
      (Or.inl (natStr_ne_nil _))
    rw [List.append_nil, intGo_natStr] at this
    simp only [intStr, pyInt, strip_id hw, this, Option.bind_some, intDigits, if_true]
    rfl

/-- **C100 (partial)**: integers, truth values and finite floats written as Python prints them are read
back unchanged. Missing: infinities and NaN (`C100_inf_fails`). -/
theorem C100_roundtrip_partial (fs : String → Option PyFloat) (repr : PyFloat → List Char)
    (hr : GoodRepr fs repr) (a : Arg) (hfin : ∀ x, a = .float x → ∃ q, x = .num q)
    (key : List Char) (hk : '=' ∉ key) :
    parseKv fs [String.ofList (key ++ '=' :: a.text repr)] [] =
      .ok [(String.ofList key, a.val)] := by
  have hc : convertValue fs (a.text repr) = a.val := by
    cases a with
    | int i =>
      refine convert_digits fs _ i ?_ ?_ (pyInt_intStr i)
      · cases i with
        | ofNat n =>
          obtain ⟨d, r, hd, h⟩ := natStr_cons n
          exact ⟨d, hd, by simp [Arg.text, intStr, h]⟩
        | negSucc n =>
          obtain ⟨d, r, hd, h⟩ := natStr_cons (n + 1)
          exact ⟨d, hd, by simp [Arg.text, intStr, h]⟩
      · intro c hc
        cases i with
        | ofNat n => exact Or.inr (natStr_chars n c hc)
        | negSucc n =>
          rcases List.mem_cons.1 hc with rfl | hc
          · exact Or.inl rfl
          · exact Or.inr (natStr_chars _ c hc)
    | bool b =>
      cases b with
      | true => exact convert_true fs (v := "True".toList) (by decide +kernel)
      | false => exact convert_false fs (v := "False".toList) (by decide +kernel) (by decide +kernel)
    | float x =>
      obtain ⟨q, rfl⟩ := hfin x rfl
      obtain ⟨h1, h2, h3⟩ := hr q
      have hnt : ∀ w : List Char, 't' ∈ w ∨ 'l' ∈ w → lower (repr (.num q)) ≠ w := by
        intro w hw he
        have hbad : ∀ c ∈ lower (repr (.num q)), c ≠ 't' ∧ c ≠ 'l' := by
          intro c hc
          obtain ⟨d, hd, rfl⟩ := mem_lower hc
          rcases h3 d hd with rfl | rfl | rfl | rfl | hdig
          · decide +kernel
          · decide +kernel
          · decide +kernel
          · decide +kernel
          · have hl : d.toLower = d := by
              unfold Char.toLower
              rw [dif_neg]
              rintro ⟨hu, _⟩
              simp only [Char.isDigit, Bool.and_eq_true, decide_eq_true_eq] at hdig
              exact absurd (UInt32.le_trans hu hdig.2) (by decide)
            rw [hl]
            constructor <;> rintro rfl <;> exact absurd hdig (by decide)
        subst he
        rcases hw with hw | hw
        · exact (hbad _ hw).1 rfl
        · exact (hbad _ hw).2 rfl
      have hor : '.' ∈ repr (.num q) ∨ 'e' ∈ lower (repr (.num q)) := by
        rcases h2 with h | h
        · exact Or.inl h
        · exact Or.inr (List.mem_map.2 ⟨'e', h, by decide +kernel⟩)
      simp only [convertValue, Arg.text, if_neg (hnt _ (Or.inl (by decide +kernel) :
        't' ∈ "true".toList ∨ 'l' ∈ "true".toList)), if_neg (hnt _ (Or.inr (by decide +kernel) :
        't' ∈ "false".toList ∨ 'l' ∈ "false".toList)), if_pos hor, h1]
      rfl
  simp only [parseKv, String.toList_ofList, splitEq_append key _ hk, hc]
  rfl

/-- **C100**: a text that is neither a truth value nor a number is passed on unchanged. -/
theorem C100_text (fs : String → Option PyFloat) (v : List Char)
    (ht : lower v ≠ "true".toList) (hf : lower v ≠ "false".toList)
    (hfl : fs (String.ofList v) = none) (hi : pyInt v = none) :
    convertValue fs v = .str (String.ofList v) := by
  simp only [convertValue, if_neg ht, if_neg hf, hfl, hi]
  split <;> rfl

/-- **C100 fails**: infinities and NaN arrive as texts, although `float` would read them. -/
theorem C100_inf_fails (fs : String → Option PyFloat) :
    convertValue fs "inf".toList = .str "inf" ∧ convertValue fs "-inf".toList = .str "-inf" ∧
    convertValue fs "nan".toList = .str "nan" := by
  refine ⟨?_, ?_, ?_⟩ <;>
    rw [convert_plain fs (by decide +kernel) (by decide +kernel) (by decide +kernel)
      (by decide +kernel)] <;> decide +kernel

/-- **C100 fails**: a text such as a trial id `1_0` arrives as the number 10. -/
theorem C100_id_fails (fs : String → Option PyFloat) :
    convertValue fs "1_0".toList = .int 10 := by
  rw [convert_plain fs (by decide +kernel) (by decide +kernel) (by decide +kernel)
    (by decide +kernel)]
  decide +kernel

example : parseKv (fun s => if s = "0.5" then some (.num (1 / 2)) else none)
      ["eta=3", "use_priors=True", "prior=a=b", "eta=4", "x=0.5", "name=hello"] [] =
    .ok [("eta", .int 4), ("use_priors", .bool true), ("prior", .str "a=b"),
      ("x", .float (.num (1 / 2))), ("name", .str "hello")] := by decide +kernel

/-! ## C101: durations -/

theorem notin_natStr {c : Char} (n : Nat) (h : ∀ d : Fin 10, digitChar d.val ≠ c) : c ∉ natStr n := by
  intro hm
  obtain ⟨d, hd, he⟩ := natStr_chars n c hm
  exact h ⟨d, hd⟩ he.symm

theorem notin_pad2 {c : Char} (n : Nat) (h : ∀ d : Fin 10, digitChar d.val ≠ c) : c ∉ pad2 n := by
  unfold pad2
  split
  · have h0 : c ≠ '0' := fun he => h 0 (by rw [he]; decide)
    simp [h0, notin_natStr n h]
  · exact notin_natStr n h

theorem pyInt_pad2 {n : Nat} (h : n < 100) : Ids.pyInt (pad2 n) = some n ∧ (pad2 n).length = 2 := by
  have : ∀ n : Fin 100, Ids.pyInt (pad2 n.val) = some n.val ∧ (pad2 n.val).length = 2 := by
    decide +kernel
  exact this ⟨n, h⟩

/-- The part `H:MM:SS`. -/
theorem readHms_ok {h m s : Nat} (hh : h < 24) (hm : m < 60) (hs : s < 60) :
    readHms (natStr h ++ ':' :: pad2 m ++ ':' :: pad2 s) = some (3600 * h + 60 * m + s) := by
  have hcol : ∀ d : Fin 10, digitChar d.val ≠ ':' := by decide
  have e : natStr h ++ ':' :: pad2 m ++ ':' :: pad2 s =
      natStr h ++ ':' :: (pad2 m ++ ':' :: pad2 s) := by simp
  obtain ⟨a1, a2⟩ := pyInt_pad2 (show m < 100 by omega)
  obtain ⟨b1, b2⟩ := pyInt_pad2 (show s < 100 by omega)
  rw [readHms, e, split_append _ _ _ (notin_natStr h hcol),
    split_append _ _ _ (notin_pad2 m hcol), split_none _ _ (notin_pad2 s hcol)]
  simp only [pyInt_natStr, a1, a2, b1, b2, hh, hm, hs, and_self, if_true]

/-- **C101**: a displayed duration reads as the whole seconds of the duration, in hours, minutes and
seconds after the days. -/
theorem C101_duration (us : Nat) : readDuration (formatDuration us) = some (us / 1000000) := by
  have hdot : ∀ d : Fin 10, digitChar d.val ≠ '.' := by decide
  have hsp : ∀ d : Fin 10, digitChar d.val ≠ ' ' := by decide
  set days := us / 86400000000 with hdays
  set secs := us / 1000000 % 86400 with hsecs
  set hms := natStr (secs / 3600) ++ ':' :: pad2 (secs / 60 % 60) ++ ':' :: pad2 (secs % 60) with hhms
  set dayp : List Char := (if days = 0 then []
    else natStr days ++ (if days = 1 then " day, ".toList else " days, ".toList)) with hdayp
  have hsum : 86400 * days + (3600 * (secs / 3600) + 60 * (secs / 60 % 60) + secs % 60) =
      us / 1000000 := by omega
  have hlt : secs < 86400 := by omega
  have hread : readHms hms =
      some (3600 * (secs / 3600) + 60 * (secs / 60 % 60) + secs % 60) :=
    readHms_ok (by omega) (by omega) (by omega)
  have hmsno : ∀ c, (∀ d : Fin 10, digitChar d.val ≠ c) → c ≠ ':' → c ∉ hms := by
    intro c hc hne
    rw [hhms]
    simp only [List.mem_append, List.mem_cons, not_or]
    exact ⟨⟨notin_natStr _ hc, hne, notin_pad2 _ hc⟩, hne, notin_pad2 _ hc⟩
  have hdotday : '.' ∉ dayp := by
    rw [hdayp]
    split
    · simp
    · rw [List.mem_append, not_or]
      refine ⟨notin_natStr _ hdot, ?_⟩
      split <;> decide +kernel
  have hall : '.' ∉ dayp ++ hms := by
    rw [List.mem_append, not_or]
    exact ⟨hdotday, hmsno _ hdot (by decide)⟩
  have hfmt : formatDuration us = dayp ++ hms := by
    have htd : timedeltaStr us =
        dayp ++ hms ++ (if us % 1000000 = 0 then [] else '.' :: pad6 (us % 1000000)) := rfl
    unfold formatDuration
    simp only [htd]
    by_cases hz : us % 1000000 = 0
    · simp only [hz, if_true, List.append_nil, if_neg hall]
    · simp only [if_neg hz]
      rw [if_pos (by simp), split_append _ _ _ hall]
      rfl
  rw [hfmt, ← hsum, readDuration]
  by_cases hz : days = 0
  · simp only [hdayp, hz, if_true, List.nil_append]
    rw [split_none _ _ (hmsno _ hsp (by decide))]
    simp only [hread]
    congr 1
    omega
  · have hday : dayp ++ hms = natStr days ++ ' ' ::
        ((if days = 1 then "day,".toList else "days,".toList) ++ ' ' :: hms) := by
      simp only [hdayp, if_neg hz]
      by_cases h1 : days = 1
      · simp only [if_pos h1]; simp
      · simp only [if_neg h1]; simp
    have hw : ' ' ∉ (if days = 1 then "day,".toList else "days,".toList) := by
      split <;> decide +kernel
    rw [hday, split_append _ _ _ (notin_natStr _ hsp), split_append _ _ _ hw,
      split_none _ _ (hmsno _ hsp (by decide))]
    simp only [hread, pyInt_natStr, if_true]

/-- Two durations are displayed in the same way exactly if they have the same whole seconds. -/
theorem C101_same (us us' : Nat) :
    formatDuration us = formatDuration us' → us / 1000000 = us' / 1000000 := by
  intro h
  have := C101_duration us
  rw [h, C101_duration] at this
  exact (Option.some.inj this).symm

example : formatDuration 93784500000 = "1 day, 2:03:04".toList ∧
    formatDuration 59999999 = "0:00:59".toList := by decide +kernel

end Neps.Cli
