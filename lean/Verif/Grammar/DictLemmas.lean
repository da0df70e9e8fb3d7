import Verif.Grammar.DictModel

/-!
# Lemmas about the text of a structure
-/

namespace Verif.Gram

/-! ### Replacing one character -/

theorem pyReplace_char (a : Char) (new : Str) (s : Str) :
    pyReplace [a] new 0 s = s.flatMap fun c => if c = a then new else [c] := by
  induction s with
  | nil => rfl
  | cons c cs ih =>
    by_cases h : c = a
    · subst h; simp [pyReplace, ih]
    · simp [pyReplace, ih, h, Ne.symm h]

/-- What `dropBrackets` does with one character. -/
def dropBracket (c : Char) : Str :=
  if c = '(' then [' '] else if c = ')' then [] else if c = ',' then [] else [c]

theorem dropBrackets_eq (s : Str) : dropBrackets s = s.flatMap dropBracket := by
  simp only [dropBrackets, pyReplace_char, List.flatMap_assoc]
  congr 1
  funext c
  unfold dropBracket
  by_cases h1 : c = '('
  · subst h1; decide
  · by_cases h2 : c = ')'
    · subst h2; decide
    · by_cases h3 : c = ','
      · subst h3; decide
      · simp [h1, h2, h3]

/-! ### A text as a list of words -/

/-- A word and the blank or line end behind it. -/
abbrev Chunks := List (Str × Char)

/-- The text of a list of words. -/
def render (L : Chunks) : Str := L.flatMap fun w => w.1 ++ [w.2]

@[simp] theorem render_nil : render [] = [] := rfl
@[simp] theorem render_cons (w : Str) (s : Char) (L : Chunks) :
    render ((w, s) :: L) = w ++ s :: render L := by simp [render]
@[simp] theorem render_append (L M : Chunks) : render (L ++ M) = render L ++ render M := by
  simp [render]

/-- Is this character one that ends a word? -/
def IsSep (c : Char) : Prop := c = ' ' ∨ c = '\n'

/-- The words contain no separators, and are followed by one. -/
def Proper (L : Chunks) : Prop := ∀ w ∈ L, (∀ c ∈ w.1, ¬ IsSep c) ∧ IsSep w.2

theorem Proper.cons {w : Str} {s : Char} {L : Chunks} (h : Proper ((w, s) :: L)) :
    (∀ c ∈ w, ¬ IsSep c) ∧ IsSep s ∧ Proper L :=
  ⟨(h _ (List.mem_cons_self ..)).1, (h _ (List.mem_cons_self ..)).2,
    fun v hv => h v (List.mem_cons_of_mem _ hv)⟩

/-- One round of `str.replace` on words: `free` says that the word stands behind a blank that is
not part of the previous occurrence. -/
def pass (p : Str) (t : Char) : Bool → Chunks → Chunks
  | _, [] => []
  | free, (w, s) :: L =>
    if free ∧ w = p ∧ s = t then (quote w, s) :: pass p t false L
    else (w, s) :: pass p t (s == ' ') L

/-- Is there a word to quote? -/
def hit (p : Str) (t : Char) : Bool → Chunks → Bool
  | _, [] => false
  | prev, (w, s) :: L => (prev && w == p && s == t) || hit p t (s == ' ') L

/-- Every word to quote is quoted. -/
def quoteT (p : Str) (t : Char) : Bool → Chunks → Chunks
  | _, [] => []
  | prev, (w, s) :: L =>
    ((if prev ∧ w = p ∧ s = t then quote w else w), s) :: quoteT p t (s == ' ') L

theorem prefix_word {p w : Str} {t s : Char} {rest : Str} (hp : ∀ c ∈ p, ¬ IsSep c)
    (ht : IsSep t) (hw : ∀ c ∈ w, ¬ IsSep c) (hs : IsSep s) :
    (p ++ [t]).isPrefixOf (w ++ s :: rest) = (w == p && s == t) := by
  induction p generalizing w with
  | nil =>
    cases w with
    | nil => simp [List.isPrefixOf, eq_comm]
    | cons c w =>
      have hc := hw c (List.mem_cons_self ..)
      have : c ≠ t := fun h => hc (h ▸ ht)
      simp [List.isPrefixOf, Ne.symm this]
  | cons a p ih =>
    have ha := hp a (List.mem_cons_self ..)
    cases w with
    | nil =>
      have : a ≠ s := fun h => ha (h ▸ hs)
      simp [List.isPrefixOf, this]
    | cons c w =>
      have := ih (w := w) (fun x hx => hp x (List.mem_cons_of_mem _ hx))
        (fun x hx => hw x (List.mem_cons_of_mem _ hx))
      simp only [List.cons_append, List.isPrefixOf, this]
      by_cases hac : a = c
      · subst hac; simp
      · rw [beq_eq_false_iff_ne.2 hac, List.cons_beq_cons, beq_eq_false_iff_ne.2 (Ne.symm hac)]
        simp

theorem pyReplace_skip (old new : Str) (x rest : Str) :
    pyReplace old new x.length (x ++ rest) = pyReplace old new 0 rest := by
  induction x with
  | nil => rfl
  | cons c x ih => simpa [pyReplace] using ih

theorem pyReplace_word (p new : Str) (t : Char) (w rest : Str) (hw : ∀ c ∈ w, ¬ IsSep c) :
    pyReplace (' ' :: p ++ [t]) new 0 (w ++ rest) =
      w ++ pyReplace (' ' :: p ++ [t]) new 0 rest := by
  induction w with
  | nil => rfl
  | cons c w ih =>
    have hc : c ≠ ' ' := fun h => hw c (List.mem_cons_self ..) (.inl h)
    have := ih fun x hx => hw x (List.mem_cons_of_mem _ hx)
    simp only [List.cons_append] at this
    simp [pyReplace, List.isPrefixOf, Ne.symm hc, this]

theorem pyReplace_pass {p : Str} {t : Char} (hp : ∀ c ∈ p, ¬ IsSep c) (ht : IsSep t) (L : Chunks)
    (hL : Proper L) :
    pyReplace (' ' :: p ++ [t]) (' ' :: quote p ++ [t]) 0 (render L) = render (pass p t false L) ∧
    pyReplace (' ' :: p ++ [t]) (' ' :: quote p ++ [t]) 0 (' ' :: render L) =
      ' ' :: render (pass p t true L) := by
  induction L with
  | nil =>
    refine ⟨rfl, ?_⟩
    cases p <;> simp [pyReplace, pass, List.isPrefixOf]
  | cons x L ih =>
    obtain ⟨w, s⟩ := x
    obtain ⟨hw, hs, hL'⟩ := hL.cons
    obtain ⟨ih1, ih2⟩ := ih hL'
    have hafter : pyReplace (' ' :: p ++ [t]) (' ' :: quote p ++ [t]) 0 (s :: render L) =
        s :: render (pass p t (s == ' ') L) := by
      rcases hs with rfl | rfl
      · simpa using ih2
      · have : pyReplace (' ' :: p ++ [t]) (' ' :: quote p ++ [t]) 0 ('\n' :: render L) =
            '\n' :: pyReplace (' ' :: p ++ [t]) (' ' :: quote p ++ [t]) 0 (render L) := by
          simp [pyReplace, List.isPrefixOf]
        rw [this, ih1]; simp
    refine ⟨?_, ?_⟩
    · rw [render_cons, pyReplace_word _ _ _ _ _ hw, hafter]
      simp [pass]
    · rw [render_cons]
      by_cases hm : w = p ∧ s = t
      · obtain ⟨rfl, rfl⟩ := hm
        have hpre : (' ' :: w ++ [s]).isPrefixOf (' ' :: (w ++ s :: render L)) = true := by
          have := prefix_word (rest := render L) hw hs hw hs
          simp only [List.cons_append, List.isPrefixOf, this]; simp
        rw [pyReplace, if_pos hpre]
        have : (' ' :: w ++ [s]).length - 1 = (w ++ [s]).length := by simp
        rw [this]
        have e : w ++ s :: render L = (w ++ [s]) ++ render L := by simp
        rw [e, pyReplace_skip, ih1]
        simp [pass]
      · have hpre : (' ' :: p ++ [t]).isPrefixOf (' ' :: (w ++ s :: render L)) = false := by
          have := prefix_word (rest := render L) hp ht hw hs
          simp only [List.cons_append, List.isPrefixOf, this]
          simpa using hm
        rw [pyReplace, if_neg (by rw [hpre]; exact Bool.false_ne_true), pyReplace_word _ _ _ _ _ hw, hafter]
        simp [pass, hm]

theorem occurs_word (p : Str) (t : Char) (w rest : Str) (hw : ∀ c ∈ w, ¬ IsSep c) :
    occurs (' ' :: p ++ [t]) (w ++ rest) = occurs (' ' :: p ++ [t]) rest := by
  induction w with
  | nil => rfl
  | cons c w ih =>
    have hc : c ≠ ' ' := fun h => hw c (List.mem_cons_self ..) (.inl h)
    have := ih fun x hx => hw x (List.mem_cons_of_mem _ hx)
    simp only [List.cons_append] at this
    simp [occurs, List.isPrefixOf, Ne.symm hc, this]

theorem occurs_hit {p : Str} {t : Char} (hp : ∀ c ∈ p, ¬ IsSep c) (ht : IsSep t) (L : Chunks)
    (hL : Proper L) :
    occurs (' ' :: p ++ [t]) (render L) = hit p t false L ∧
    occurs (' ' :: p ++ [t]) (' ' :: render L) = hit p t true L := by
  induction L with
  | nil =>
    refine ⟨by simp [occurs, hit, List.isPrefixOf], ?_⟩
    cases p <;> simp [occurs, hit, List.isPrefixOf]
  | cons x L ih =>
    obtain ⟨w, s⟩ := x
    obtain ⟨hw, hs, hL'⟩ := hL.cons
    obtain ⟨ih1, ih2⟩ := ih hL'
    have hafter : occurs (' ' :: p ++ [t]) (s :: render L) = hit p t (s == ' ') L := by
      rcases hs with rfl | rfl
      · simpa using ih2
      · have : occurs (' ' :: p ++ [t]) ('\n' :: render L) =
            occurs (' ' :: p ++ [t]) (render L) := by
          simp [occurs, List.isPrefixOf]
        rw [this, ih1]; simp
    refine ⟨?_, ?_⟩
    · rw [render_cons, occurs_word _ _ _ _ hw, hafter]
      simp [hit]
    · have e : occurs (' ' :: p ++ [t]) (' ' :: (w ++ s :: render L)) =
          ((p ++ [t]).isPrefixOf (w ++ s :: render L) ||
            occurs (' ' :: p ++ [t]) (w ++ s :: render L)) := by
        simp [occurs]
      rw [render_cons, e, prefix_word hp ht hw hs, occurs_word _ _ _ _ hw, hafter]
      simp [hit]

theorem quote_ne {p w : Str} (hp : '"' ∉ p) : quote w ≠ p := by
  rintro rfl
  exact hp (by simp [quote])

theorem quote_proper {w : Str} (hw : ∀ c ∈ w, ¬ IsSep c) : ∀ c ∈ quote w, ¬ IsSep c := by
  intro c hc
  simp only [quote, List.cons_append, List.mem_cons, List.mem_append, List.not_mem_nil,
    or_false] at hc
  rcases hc with rfl | h | rfl
  · simp [IsSep]
  · exact hw c h
  · simp [IsSep]

theorem pass_proper {p : Str} {t : Char} : ∀ (free : Bool) (L : Chunks), Proper L →
    Proper (pass p t free L)
  | _, [], h => h
  | free, (w, s) :: L, h => by
    obtain ⟨hw, hs, hL⟩ := h.cons
    unfold pass
    split
    · intro v hv
      rcases List.mem_cons.1 hv with rfl | hv
      · exact ⟨quote_proper hw, hs⟩
      · exact pass_proper _ L hL v hv
    · intro v hv
      rcases List.mem_cons.1 hv with rfl | hv
      · exact ⟨hw, hs⟩
      · exact pass_proper _ L hL v hv

/-- How many words are still the name? -/
def left (p : Str) (L : Chunks) : ℕ := L.countP (·.1 == p)

theorem left_cons (p w : Str) (s : Char) (L : Chunks) :
    left p ((w, s) :: L) = left p L + if w = p then 1 else 0 := by
  simp [left, List.countP_cons]

theorem pass_left {p : Str} {t : Char} (hp : '"' ∉ p) : ∀ (free : Bool) (L : Chunks),
    left p (pass p t free L) ≤ left p L
  | _, [] => le_rfl
  | free, (w, s) :: L => by
    unfold pass
    split
    · rw [left_cons, left_cons, if_neg (quote_ne hp)]
      have := pass_left hp (t := t) false L
      omega
    · rw [left_cons, left_cons]
      have := pass_left hp (t := t) (s == ' ') L
      omega

theorem pass_progress {p : Str} {t : Char} (hp : '"' ∉ p) : ∀ (free : Bool) (L : Chunks),
    hit p t free L = true → left p (pass p t free L) < left p L
  | _, [], h => by simp [hit] at h
  | free, (w, s) :: L, h => by
    unfold pass
    split
    · rename_i hc
      rw [left_cons, left_cons, if_neg (quote_ne hp), if_pos hc.2.1]
      have := pass_left hp (t := t) false L
      omega
    · rename_i hc
      have : hit p t (s == ' ') L = true := by
        simp only [hit, Bool.or_eq_true, Bool.and_eq_true, beq_iff_eq] at h
        rcases h with ⟨⟨h1, h2⟩, h3⟩ | h
        · exact absurd ⟨h1, h2, h3⟩ hc
        · exact h
      have := pass_progress hp (s == ' ') L this
      rw [left_cons, left_cons]
      omega

theorem quoteT_free {p : Str} {t : Char} : ∀ (prev : Bool) (L : Chunks),
    hit p t prev L = false → quoteT p t prev L = L
  | _, [], _ => rfl
  | prev, (w, s) :: L, h => by
    simp only [hit, Bool.or_eq_false_iff] at h
    have h1 : ¬ (prev = true ∧ w = p ∧ s = t) := by
      rintro ⟨rfl, rfl, rfl⟩
      simp at h
    rw [quoteT, if_neg h1, quoteT_free _ L h.2]

/-- What a round quotes is quoted in the end. -/
theorem quoteT_pass {p : Str} {t : Char} (hp : '"' ∉ p) : ∀ (prev free : Bool) (L : Chunks),
    (free = true → prev = true) → quoteT p t prev (pass p t free L) = quoteT p t prev L
  | _, _, [], _ => rfl
  | prev, free, (w, s) :: L, h => by
    unfold pass
    split
    · rename_i hc
      obtain ⟨rfl, rfl, rfl⟩ := hc
      have hq : quote w ≠ w := quote_ne hp
      simp only [quoteT, h rfl, hq, false_and, and_false, if_false, and_self, if_true]
      rw [quoteT_pass hp _ false L (by simp)]
    · simp only [quoteT]
      rw [quoteT_pass hp _ _ L (by simp)]

theorem saveReplace_quoteT {p : Str} {t : Char} (hp : ∀ c ∈ p, ¬ IsSep c) (hq : '"' ∉ p)
    (ht : IsSep t) : ∀ (fuel : ℕ) (L : Chunks), Proper L → left p L < fuel →
    saveReplace (' ' :: p ++ [t]) (' ' :: quote p ++ [t]) fuel (render L) =
      some (render (quoteT p t false L))
  | 0, _, _, h => absurd h (Nat.not_lt_zero _)
  | fuel + 1, L, hL, h => by
    rw [saveReplace, (occurs_hit hp ht L hL).1]
    by_cases hh : hit p t false L = true
    · rw [if_pos hh, (pyReplace_pass hp ht L hL).1,
        saveReplace_quoteT hp hq ht fuel _ (pass_proper _ _ hL)
          (by have := pass_progress hq _ _ hh; omega),
        quoteT_pass hq _ _ _ (by simp)]
    · rw [if_neg hh, quoteT_free _ _ (by simpa using hh)]

/-! ### Quoting every name of a list -/

/-- The words of `Q` that stand behind a blank are quoted. -/
def mark (Q : List Str) : Bool → Chunks → Chunks
  | _, [] => []
  | prev, (w, s) :: L => ((if prev ∧ w ∈ Q then quote w else w), s) :: mark Q (s == ' ') L

theorem mark_proper {Q : List Str} : ∀ (prev : Bool) (L : Chunks), Proper L →
    Proper (mark Q prev L)
  | _, [], h => h
  | prev, (w, s) :: L, h => by
    obtain ⟨hw, hs, hL⟩ := h.cons
    intro v hv
    rw [mark] at hv
    rcases List.mem_cons.1 hv with rfl | hv
    · refine ⟨?_, hs⟩
      dsimp only
      split
      · exact quote_proper hw
      · exact hw
    · exact mark_proper _ L hL v hv

theorem quoteT_proper {p : Str} {t : Char} : ∀ (prev : Bool) (L : Chunks), Proper L →
    Proper (quoteT p t prev L)
  | _, [], h => h
  | prev, (w, s) :: L, h => by
    obtain ⟨hw, hs, hL⟩ := h.cons
    intro v hv
    rw [quoteT] at hv
    rcases List.mem_cons.1 hv with rfl | hv
    · refine ⟨?_, hs⟩
      dsimp only
      split
      · exact quote_proper hw
      · exact hw
    · exact quoteT_proper _ L hL v hv

theorem mark_add {Q : List Str} {p : Str} (hq : '"' ∉ p) : ∀ (prev : Bool) (L : Chunks),
    Proper L →
    quoteT p '\n' prev (quoteT p ' ' prev (mark Q prev L)) = mark (Q ++ [p]) prev L
  | _, [], _ => rfl
  | prev, (w, s) :: L, h => by
    obtain ⟨_, hs, hL⟩ := h.cons
    have ih := mark_add (Q := Q) hq (s == ' ') L hL
    simp only [mark, quoteT, ih, List.mem_append, List.mem_singleton]
    congr 2
    have hne : ∀ v : Str, quote v ≠ p := fun v => quote_ne hq
    cases prev
    · simp
    · by_cases hw : w ∈ Q
      · simp [hw, hne]
      · by_cases hp : w = p
        · subst hp
          rcases hs with rfl | rfl
          · simp [hw, hne]
          · simp [hw]
        · simp [hw, hp]

theorem length_mark (Q : List Str) : ∀ (prev : Bool) (L : Chunks),
    (mark Q prev L).length = L.length
  | _, [] => rfl
  | prev, (w, s) :: L => by simp [mark, length_mark Q _ L]

theorem length_quoteT (p : Str) (t : Char) : ∀ (prev : Bool) (L : Chunks),
    (quoteT p t prev L).length = L.length
  | _, [] => rfl
  | prev, (w, s) :: L => by simp [quoteT, length_quoteT p t _ L]

theorem left_le (p : Str) (L : Chunks) : left p L ≤ L.length := List.countP_le_length

/-- The whole text after the loops over the names. -/
theorem quoteNames {L : Chunks} (hL : Proper L) {fuel : ℕ} (hf : L.length < fuel) :
    ∀ (ps Q : List Str), (∀ p ∈ ps, (∀ c ∈ p, ¬ IsSep c) ∧ '"' ∉ p) →
    ps.foldlM (quoteName fuel) (render (mark Q false L)) = some (render (mark (Q ++ ps) false L))
  | [], Q, _ => by simp
  | p :: ps, Q, h => by
    obtain ⟨hp, hq⟩ := h p (List.mem_cons_self ..)
    have hm := mark_proper (Q := Q) false L hL
    have e : quoteName fuel (render (mark Q false L)) p =
        some (render (mark (Q ++ [p]) false L)) := by
      unfold quoteName
      rw [saveReplace_quoteT hp hq (.inl rfl) fuel _ hm
        (by have := left_le p (mark Q false L); rw [length_mark] at this; omega)]
      rw [Option.bind_some, saveReplace_quoteT hp hq (.inr rfl) fuel _
        (quoteT_proper _ _ hm)
        (by
          have := left_le p (quoteT p ' ' false (mark Q false L))
          rw [length_quoteT, length_mark] at this; omega),
        mark_add hq _ _ hL]
    rw [List.foldlM_cons, e, Option.bind_eq_bind, Option.bind_some,
      quoteNames hL hf ps (Q ++ [p]) fun x hx => h x (List.mem_cons_of_mem _ hx)]
    simp

theorem mark_nil : ∀ (prev : Bool) (L : Chunks), mark [] prev L = L
  | _, [] => rfl
  | prev, (w, s) :: L => by simp [mark, mark_nil _ L]

end Verif.Gram
