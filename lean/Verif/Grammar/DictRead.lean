import Verif.Grammar.DictLemmas
import Verif.Grammar.DictSpec

/-!
# Lemmas: reading the text of a structure
-/

namespace Verif.Gram

/-! ### The words of a production -/

/-- The words of a text, with the empty ones, and what follows them. -/
def chunk (e : Char) : Str → Chunks
  | [] => [([], e)]
  | c :: cs =>
    if c = ' ' then ([], ' ') :: chunk e cs
    else
      match chunk e cs with
      | [] => []
      | (w, s) :: L => (c :: w, s) :: L

theorem chunk_ne (e : Char) (s : Str) : chunk e s ≠ [] := by
  induction s with
  | nil => simp [chunk]
  | cons c cs ih =>
    simp only [chunk]
    split
    · simp
    · split
      · rename_i h; exact absurd h ih
      · simp

theorem render_chunk (e : Char) (s : Str) : render (chunk e s) = s ++ [e] := by
  induction s with
  | nil => rfl
  | cons c cs ih =>
    simp only [chunk]
    split
    · rename_i h; subst h; simp [ih]
    · split
      · rename_i h; exact absurd h (chunk_ne e cs)
      · rename_i w x L h
        rw [h] at ih
        simp only [render_cons] at ih ⊢
        simp [ih]

theorem chunk_fst (e : Char) (s : Str) : (chunk e s).map (·.1) = s.splitOnP (· == ' ') := by
  induction s with
  | nil => rfl
  | cons c cs ih =>
    simp only [chunk, List.splitOnP_cons_eq_if_modifyHead]
    by_cases h : c = ' '
    · simp [h, ih]
    · simp only [h, if_false, beq_iff_eq, ← ih]
      split
      · rename_i h'; exact absurd h' (chunk_ne e cs)
      · rename_i h'; simp [h']

theorem chunk_proper {e : Char} (he : IsSep e) {s : Str} (hs : '\n' ∉ s) :
    Proper (chunk e s) := by
  induction s with
  | nil =>
    intro w hw
    simp only [chunk, List.mem_singleton] at hw
    subst hw
    exact ⟨by simp, he⟩
  | cons c cs ih =>
    have ih' := ih fun h => hs (List.mem_cons_of_mem _ h)
    simp only [chunk]
    split
    · intro w hw
      rcases List.mem_cons.1 hw with rfl | hw
      · exact ⟨by simp, .inl rfl⟩
      · exact ih' w hw
    · rename_i hc
      split
      · intro w hw; cases hw
      · rename_i w x L h
        rw [h] at ih'
        obtain ⟨h1, h2, h3⟩ := ih'.cons
        intro v hv
        rcases List.mem_cons.1 hv with rfl | hv
        · refine ⟨?_, h2⟩
          intro a ha
          rcases List.mem_cons.1 ha with rfl | ha
          · rintro (h | h)
            · exact hc h
            · exact hs (h ▸ List.mem_cons_self ..)
          · exact h1 a ha
        · exact h3 v hv

/-- Every word but the last is followed by a blank, the last one by the end of the line. -/
inductive Line : Chunks → Prop
  | last (w : Str) : Line [(w, '\n')]
  | cons (w : Str) {L : Chunks} : Line L → Line ((w, ' ') :: L)

theorem chunk_line (s : Str) : Line (chunk '\n' s) := by
  induction s with
  | nil => exact .last _
  | cons c cs ih =>
    simp only [chunk]
    split
    · exact .cons _ ih
    · split
      · rename_i h; exact absurd h (chunk_ne _ cs)
      · rename_i w x L h
        rw [h] at ih
        cases ih with
        | last => exact .last _
        | cons _ h => exact .cons _ h

theorem chunk_blank_line (s : Str) {L : Chunks} (hL : Line L) : Line (chunk ' ' s ++ L) := by
  induction s with
  | nil => exact .cons _ hL
  | cons c cs ih =>
    simp only [chunk]
    split
    · exact .cons _ ih
    · split
      · rename_i h; exact absurd h (chunk_ne _ cs)
      · rename_i w x M h
        rw [h] at ih
        simp only [List.cons_append] at ih ⊢
        generalize M ++ L = N at ih
        cases ih with
        | last => exact .last _
        | cons _ h => exact .cons _ h

/-- Dropping the brackets does not change the names. -/
theorem clean_names (t : Str) (h : WellSpaced t) :
    ∃ w r r', (t.flatMap dropBracket).splitOnP (· == ' ') = w :: r ∧ t.splitOnP isPunct = w :: r' ∧
      r.filter (· ≠ []) = r'.filter (· ≠ []) := by
  induction t with
  | nil => exact ⟨[], [], [], rfl, rfl, rfl⟩
  | cons c cs ih =>
    have hcs : WellSpaced cs := fun a x y b e hx =>
      h (c :: a) x y b (by rw [e]; rfl) hx
    obtain ⟨w, r, r', e1, e2, e3⟩ := ih hcs
    by_cases h1 : c = ' ' ∨ c = '('
    · refine ⟨[], w :: r, w :: r', ?_, ?_, by simp only [List.filter_cons]; rw [e3]⟩
      · have : dropBracket c = [' '] := by rcases h1 with rfl | rfl <;> decide
        simp only [List.flatMap_cons, this, List.cons_append, List.nil_append,
          List.splitOnP_cons_eq_if_modifyHead, e1]
        simp
      · have : isPunct c = true := by rcases h1 with rfl | rfl <;> decide
        simp [List.splitOnP_cons_eq_if_modifyHead, this, e2]
    · by_cases h2 : c = ')' ∨ c = ','
      · have hw : w = [] := by
          cases cs with
          | nil => exact (by simpa using e2.symm : w = [] ∧ r' = []).1
          | cons y ys =>
            have := h [] c y ys rfl h2.symm
            rw [List.splitOnP_cons_eq_if_modifyHead, if_pos this] at e2
            simpa using (List.cons.inj e2).1.symm
        subst hw
        refine ⟨[], r, [] :: r', ?_, ?_, by rw [e3]; simp⟩
        · have : dropBracket c = [] := by rcases h2 with rfl | rfl <;> decide
          simp only [List.flatMap_cons, this, List.nil_append, e1]
        · have : isPunct c = true := by rcases h2 with rfl | rfl <;> decide
          simp [List.splitOnP_cons_eq_if_modifyHead, this, e2]
      · obtain ⟨h1a, h1b⟩ := not_or.1 h1
        obtain ⟨h2a, h2b⟩ := not_or.1 h2
        refine ⟨c :: w, r, r', ?_, ?_, e3⟩
        · have : dropBracket c = [c] := by simp [dropBracket, h1b, h2a, h2b]
          simp only [List.flatMap_cons, this, List.cons_append, List.nil_append,
            List.splitOnP_cons_eq_if_modifyHead, e1]
          simp [h1a]
        · have : isPunct c = false := by simp [isPunct, h1a, h1b, h2a, h2b]
          simp [List.splitOnP_cons_eq_if_modifyHead, this, e2]

theorem chunk_names (e : Char) {t : Str} (h : WellSpaced t) :
    ((chunk e (t.flatMap dropBracket)).map (·.1)).filter (· ≠ []) = namesOf t := by
  obtain ⟨w, r, r', e1, e2, e3⟩ := clean_names t h
  rw [chunk_fst, namesOf, e1, e2, List.filter_cons, List.filter_cons, e3]

/-! ### Reading a word -/

theorem nameStart_notBlank {c : Char} (h : isNameChar c = true) : isBlank c = false := by
  by_contra hb
  simp only [isBlank, Char.isWhitespace, Bool.not_eq_false, Bool.or_eq_true,
    decide_eq_true_eq] at hb
  rcases hb with ((rfl | rfl) | rfl) | rfl <;> revert h <;> decide

theorem isNameChar_of_start {c : Char} (h : isNameStart c = true) : isNameChar c = true := by
  simp [isNameChar, h]

theorem IsName.chars {w : Str} (h : IsName w) : ∀ c ∈ w, isNameChar c = true := by
  obtain ⟨c, cs, rfl, h1, h2⟩ := h
  intro x hx
  rcases List.mem_cons.1 hx with rfl | hx
  · exact isNameChar_of_start h1
  · exact h2 x hx

/-- What follows a word: nothing, or a blank. -/
def Stops (Y : Str) : Prop := Y = [] ∨ ∃ Z, Y = ' ' :: Z

theorem Stops.takeWhile {Y : Str} (h : Stops Y) : Y.takeWhile isNameChar = [] := by
  rcases h with rfl | ⟨Z, rfl⟩
  · rfl
  · simp [List.takeWhile, show isNameChar ' ' = false by decide]

theorem Stops.dropWhile {Y : Str} (h : Stops Y) : Y.dropWhile isNameChar = Y := by
  rcases h with rfl | ⟨Z, rfl⟩
  · rfl
  · simp [List.dropWhile, show isNameChar ' ' = false by decide]

theorem readName_word {w Y : Str} (hw : IsName w) (hY : Stops Y) :
    readName (w ++ Y) = some (w, Y.dropWhile isBlank) := by
  obtain ⟨c, cs, rfl, h1, h2⟩ := hw
  simp only [List.cons_append, readName, h1, if_true]
  rw [List.takeWhile_append_of_pos h2, List.dropWhile_append_of_pos h2, hY.takeWhile,
    hY.dropWhile, List.append_nil]

/-- The word in the text of the grammar. -/
def marked (Q : List Str) (w : Str) : Str := if w ∈ Q then quote w else w

/-- What a word of the structure contributes to the right hand sides. -/
def altsOf (Q : List Str) : List Str → List (List Sym)
  | [] => [[]]
  | w :: ws =>
    if w = [] then altsOf Q ws
    else if w = ['|'] then [] :: altsOf Q ws
    else addFront (symbolOf Q w) (altsOf Q ws)

/-- A word that can be read. -/
def GoodWord (Q : List Str) (w : Str) : Prop := w = [] ∨ w = ['|'] ∨ w ∈ Q ∨ IsName w

theorem bar_not_primitive {Q : List Str} (hQ : ∀ p ∈ Q, IsPrimitive p) : ['|'] ∉ Q :=
  fun h => (hQ _ h).2.1 rfl

theorem nil_not_primitive {Q : List Str} (hQ : ∀ p ∈ Q, IsPrimitive p) : [] ∉ Q :=
  fun h => (hQ _ h).1 rfl

theorem takeWhile_quote {v : Str} (hv : '"' ∉ v) (Y : Str) :
    (v ++ '"' :: Y).takeWhile (· ≠ '"') = v ∧ (v ++ '"' :: Y).dropWhile (· ≠ '"') = '"' :: Y := by
  have hv' : ∀ c ∈ v, (decide (c ≠ '"')) = true := by
    intro c hc
    have : c ≠ '"' := fun h => hv (h ▸ hc)
    simpa using this
  rw [List.takeWhile_append_of_pos hv', List.dropWhile_append_of_pos hv']
  simp

/-- Reading one word. -/
theorem readSides_word {Q : List Str} (hQ : ∀ p ∈ Q, IsPrimitive p) {w Y : Str}
    (hw : GoodWord Q w) (hne : w ≠ []) (hY : Stops Y) (n : ℕ) :
    readSides (n + 1) (marked Q w ++ Y) =
      (readSides n (Y.dropWhile isBlank)).map fun as =>
        if w = ['|'] then [] :: as else addFront (symbolOf Q w) as := by
  by_cases hm : w ∈ Q
  · have hb : w ≠ ['|'] := fun h => bar_not_primitive hQ (h ▸ hm)
    have hv : '"' ∉ w := (hQ w hm).2.2.2.2.2
    obtain ⟨e1, e2⟩ := takeWhile_quote hv Y
    have e : marked Q w ++ Y = '"' :: (w ++ '"' :: Y) := by simp [marked, hm, quote]
    rw [e]
    simp only [readSides, true_or, if_true, e2, e1, hb, if_false]
    simp [symbolOf, hm]
  · have e : marked Q w = w := by simp [marked, hm]
    rw [e]
    rcases hw with h | h | h | h
    · exact absurd h hne
    · subst h
      simp [readSides]
    · exact absurd h hm
    · have hr := readName_word h hY
      have hb : w ≠ ['|'] := by
        rintro rfl
        have := h.chars '|' (by simp)
        revert this; decide
      have hc := h.chars
      obtain ⟨c, cs, rfl, h1, h2⟩ := h
      have hs : isNameStart c = true := h1
      have n1 : c ≠ '"' := by rintro rfl; revert hs; decide
      have n2 : c ≠ '\'' := by rintro rfl; revert hs; decide
      have n3 : c ≠ '|' := by rintro rfl; revert hs; decide
      simp only [List.cons_append] at hr ⊢
      simp only [readSides, n1, n2, n3, or_self, if_false, hr, hb]
      simp [symbolOf, hm]

/-! ### Reading the right hand sides of a rule -/

/-- The text of some words, each behind a blank. -/
def behind (ws : List Str) : Str := ws.flatMap fun w => ' ' :: w

theorem rdropWhile_append' (p : Char → Bool) (l m : Str) :
    (l ++ m).rdropWhile p =
      if m.all p then l.rdropWhile p else l ++ m.rdropWhile p := by
  induction m using List.reverseRecOn with
  | nil => simp
  | append_singleton m c ih =>
    rw [← List.append_assoc]
    by_cases hc : p c = true
    · rw [List.rdropWhile_concat_pos _ _ _ hc, ih, List.rdropWhile_concat_pos _ _ _ hc]
      simp [hc]
    · rw [List.rdropWhile_concat_neg _ _ _ hc, List.rdropWhile_concat_neg _ _ _ hc]
      simp [hc]

theorem rdropWhile_all {p : Char → Bool} {l : Str} (h : l.all p = true) : l.rdropWhile p = [] := by
  rw [List.rdropWhile_eq_nil_iff]
  simpa using h

theorem GoodWord.last {Q : List Str} {w : Str} (hw : GoodWord Q w) (hne : w ≠ []) : ∃ v c, marked Q w = v ++ [c] ∧ isBlank c = false := by
  by_cases hm : w ∈ Q
  · exact ⟨'"' :: w, '"', by simp [marked, hm, quote], by decide⟩
  · have e : marked Q w = w := by simp [marked, hm]
    rw [e]
    rcases hw with h | h | h | h
    · exact absurd h hne
    · exact ⟨[], '|', h, by decide⟩
    · exact absurd h hm
    · refine ⟨w.dropLast, w.getLast hne, (List.dropLast_append_getLast hne).symm, ?_⟩
      exact nameStart_notBlank (h.chars _ (List.getLast_mem hne))

theorem GoodWord.first {Q : List Str} {w : Str} (hw : GoodWord Q w) (hne : w ≠ []) : ∃ c v, marked Q w = c :: v ∧ isBlank c = false := by
  by_cases hm : w ∈ Q
  · exact ⟨'"', w ++ ['"'], by simp [marked, hm, quote], by decide⟩
  · have e : marked Q w = w := by simp [marked, hm]
    rw [e]
    rcases hw with h | h | h | h
    · exact absurd h hne
    · exact ⟨'|', [], h, by decide⟩
    · exact absurd h hm
    · obtain ⟨c, cs, rfl, h1, _⟩ := h
      exact ⟨c, cs, rfl, nameStart_notBlank (isNameChar_of_start h1)⟩

theorem behind_stops (ws : List Str) : Stops ((behind ws).rdropWhile isBlank) := by
  cases h : (behind ws).rdropWhile isBlank with
  | nil => exact .inl rfl
  | cons c Z =>
    refine .inr ⟨Z, ?_⟩
    have hpre := List.rdropWhile_prefix isBlank (l := behind ws)
    rw [h] at hpre
    obtain ⟨tl, htl⟩ := hpre
    cases ws with
    | nil => simp [behind] at htl
    | cons w ws =>
      have : c = ' ' := by
        have := congrArg List.head? htl
        simpa [behind] using this
      rw [this]

theorem behind_cons {Q : List Str} {w : Str} (hw : GoodWord Q w) (hne : w ≠ []) (ws : List Str) :
    (behind (marked Q w :: ws)).rdropWhile isBlank =
      ' ' :: (marked Q w ++ (behind ws).rdropWhile isBlank) := by
  obtain ⟨v, c, e, hc⟩ := hw.last hne
  have e1 : behind (marked Q w :: ws) = (' ' :: marked Q w) ++ behind ws := by simp [behind]
  rw [e1, rdropWhile_append']
  split
  · rename_i h
    rw [rdropWhile_all h, e]
    have : ' ' :: (v ++ [c]) = (' ' :: v) ++ [c] := rfl
    rw [this, List.rdropWhile_concat_neg _ _ _ (by simp [hc])]
    simp
  · simp

theorem behind_nil (ws : List Str) :
    ((behind ([] :: ws)).rdropWhile isBlank).dropWhile isBlank =
      ((behind ws).rdropWhile isBlank).dropWhile isBlank := by
  have e1 : behind ([] :: ws) = [' '] ++ behind ws := by simp [behind]
  rw [e1, rdropWhile_append']
  split
  · rename_i h
    rw [rdropWhile_all h, rdropWhile_all (by decide)]
  · simp [show isBlank ' ' = true by decide]

/-- Reading the right hand sides of a rule. -/
theorem readSides_behind {Q : List Str} (hQ : ∀ p ∈ Q, IsPrimitive p) (ws : List Str)
    (hws : ∀ w ∈ ws, GoodWord Q w) (n : ℕ)
    (hn : (((behind (ws.map (marked Q))).rdropWhile isBlank).dropWhile isBlank).length ≤ n) :
    readSides n (((behind (ws.map (marked Q))).rdropWhile isBlank).dropWhile isBlank) =
      some (altsOf Q ws) := by
  induction ws generalizing n with
  | nil => cases n <;> rfl
  | cons w ws ih =>
    have hws' : ∀ v ∈ ws, GoodWord Q v := fun v hv => hws v (List.mem_cons_of_mem _ hv)
    have hw := hws w (List.mem_cons_self ..)
    by_cases hne : w = []
    · subst hne
      have e : marked Q [] = [] := by simp [marked, nil_not_primitive hQ]
      rw [List.map_cons, e, behind_nil] at hn ⊢
      rw [ih hws' n hn]
      simp [altsOf]
    · obtain ⟨c, v, ec, hc⟩ := hw.first hne
      have e : (((behind ((w :: ws).map (marked Q))).rdropWhile isBlank).dropWhile isBlank) =
          marked Q w ++ (behind (ws.map (marked Q))).rdropWhile isBlank := by
        rw [List.map_cons, behind_cons hw hne, ec]
        simp [show isBlank ' ' = true by decide, hc]
      rw [e] at hn ⊢
      have hlen : 0 < (marked Q w).length := by rw [ec]; simp
      have hd : (((behind (ws.map (marked Q))).rdropWhile isBlank).dropWhile isBlank).length ≤
          ((behind (ws.map (marked Q))).rdropWhile isBlank).length :=
        (List.dropWhile_sublist _).length_le
      rw [List.length_append] at hn
      obtain ⟨m, rfl⟩ : ∃ m, n = m + 1 := ⟨n - 1, by omega⟩
      rw [readSides_word hQ hw hne (behind_stops _) m, ih hws' m (by omega)]
      simp only [Option.map_some, altsOf, hne, if_false]

end Verif.Gram
