import Verif.Grammar.DictRead
import Verif.Grammar.Spec

/-!
# The grammar of an architecture parameter is the one its structure describes (C116)
-/

namespace Verif.Gram

/-! ### The text of the rules -/

/-- A production without brackets and commas. -/
def clean (t : Str) : Str := t.flatMap dropBracket

/-- The words of the right hand sides of a rule. -/
def rhsChunks : List Str → Chunks
  | [] => chunk '\n' []
  | [p] => chunk '\n' (clean p)
  | p :: q :: ps => chunk ' ' (clean p) ++ (['|'], ' ') :: rhsChunks (q :: ps)

/-- The words of a rule. -/
def ruleChunks (r : Str × List Str) : Chunks := (r.1, ' ') :: (['-', '>'], ' ') :: rhsChunks r.2

theorem render_rhs (ps : List Str) : render (rhsChunks ps) = clean (joinBar ps) ++ ['\n'] := by
  induction ps with
  | nil => rfl
  | cons p ps ih =>
    cases ps with
    | nil => simp [rhsChunks, joinBar, render_chunk]
    | cons q qs =>
      rw [rhsChunks, render_append, render_chunk, render_cons, ih, joinBar]
      have e : clean (p ++ " | ".toList ++ joinBar (q :: qs)) =
          clean p ++ " | ".toList ++ clean (joinBar (q :: qs)) := by
        simp only [clean, List.flatMap_append]
        congr 2
      rw [e]
      simp

theorem nameChar_clean {c : Char} (h : isNameChar c = true) : dropBracket c = [c] := by
  have h1 : c ≠ '(' := by rintro rfl; revert h; decide
  have h2 : c ≠ ')' := by rintro rfl; revert h; decide
  have h3 : c ≠ ',' := by rintro rfl; revert h; decide
  simp [dropBracket, h1, h2, h3]

theorem IsName.clean {w : Str} (h : IsName w) : clean w = w := by
  have := h.chars
  clear h
  unfold Gram.clean
  induction w with
  | nil => rfl
  | cons c cs ih =>
    rw [List.flatMap_cons, nameChar_clean (this c (List.mem_cons_self ..)),
      ih fun x hx => this x (List.mem_cons_of_mem _ hx)]
    rfl

theorem render_rules (rules : List (Str × List Str)) (hk : ∀ r ∈ rules, IsName r.1) :
    dropBrackets (rulesText rules) = render (rules.flatMap ruleChunks) := by
  rw [dropBrackets_eq]
  induction rules with
  | nil => rfl
  | cons r rs ih =>
    have ih' := ih fun x hx => hk x (List.mem_cons_of_mem _ hx)
    have hr : r.1.flatMap dropBracket = r.1 := (hk r (List.mem_cons_self ..)).clean
    simp only [rulesText, List.flatMap_cons] at ih' ⊢
    rw [List.flatMap_append, ih', render_append]
    congr 1
    simp only [ruleChunks, render_cons, render_rhs, List.flatMap_append, hr]
    have e : (" -> ".toList).flatMap dropBracket = " -> ".toList := by decide
    have e' : ['\n'].flatMap dropBracket = ['\n'] := by decide
    rw [e, e']
    simp [clean]

/-! ### The words are proper -/

theorem clean_newline {t : Str} (h : '\n' ∉ t) : '\n' ∉ clean t := by
  intro hm
  obtain ⟨c, hc, h'⟩ := List.mem_flatMap.1 hm
  unfold dropBracket at h'
  split_ifs at h' with h1 h2 h3
  · simp at h'
  · simp at h'
  · simp at h'
  · rw [List.mem_singleton] at h'
    exact h (h' ▸ hc)

theorem proper_append {L M : Chunks} (hL : Proper L) (hM : Proper M) : Proper (L ++ M) := by
  intro w hw
  rcases List.mem_append.1 hw with h | h
  · exact hL w h
  · exact hM w h

theorem proper_cons {w : Str} {s : Char} {L : Chunks} (hw : ∀ c ∈ w, ¬ IsSep c) (hs : IsSep s)
    (hL : Proper L) : Proper ((w, s) :: L) := by
  intro v hv
  rcases List.mem_cons.1 hv with rfl | hv
  · exact ⟨hw, hs⟩
  · exact hL v hv

theorem rhs_proper (ps : List Str) (h : ∀ t ∈ ps, '\n' ∉ t) : Proper (rhsChunks ps) := by
  induction ps with
  | nil => exact chunk_proper (.inr rfl) (by simp)
  | cons p ps ih =>
    have hp := clean_newline (h p (List.mem_cons_self ..))
    cases ps with
    | nil => exact chunk_proper (.inr rfl) hp
    | cons q qs =>
      exact proper_append (chunk_proper (.inl rfl) hp)
        (proper_cons (by simp [IsSep]) (.inl rfl) (ih fun t ht => h t (List.mem_cons_of_mem _ ht)))

theorem nameChar_sep {c : Char} (h : isNameChar c = true) : ¬ IsSep c := by
  rintro (rfl | rfl) <;> revert h <;> decide

theorem rules_proper {rules : List (Str × List Str)} {Q : List Str} (h : WellWritten rules Q) :
    Proper (rules.flatMap ruleChunks) := by
  intro w hw
  obtain ⟨r, hr, hw⟩ := List.mem_flatMap.1 hw
  refine proper_cons (fun c hc => nameChar_sep ((h.key r hr).chars c hc)) (.inl rfl)
    (proper_cons (by simp [IsSep]) (.inl rfl) (rhs_proper r.2 fun t ht => (h.spaced r hr t ht).2)) w hw

/-! ### Quoting the primitives -/

theorem rhs_line (ps : List Str) : Line (rhsChunks ps) := by
  induction ps with
  | nil => exact .last _
  | cons p ps ih =>
    cases ps with
    | nil => exact chunk_line _
    | cons q qs => exact chunk_blank_line _ (.cons _ ih)

theorem mark_line {L : Chunks} (hL : Line L) (Q : List Str) (M : Chunks) :
    mark Q true (L ++ M) = L.map (fun w => (marked Q w.1, w.2)) ++ mark Q false M := by
  induction hL with
  | last w => simp [mark, marked]
  | cons w _ ih => simp [mark, marked, ih]

theorem mark_rules {Q : List Str} (hQ : ∀ p ∈ Q, IsPrimitive p) (rules : List (Str × List Str)) :
    mark Q false (rules.flatMap ruleChunks) =
      rules.flatMap fun r => (r.1, ' ') :: (['-', '>'], ' ') ::
        (rhsChunks r.2).map fun w => (marked Q w.1, w.2) := by
  induction rules with
  | nil => rfl
  | cons r rs ih =>
    have hb : ['-', '>'] ∉ Q := fun h => (hQ _ h).2.2.1 rfl
    rw [List.flatMap_cons, List.flatMap_cons, ruleChunks]
    simp only [List.cons_append, mark, hb, and_false, if_false, Bool.false_eq_true, false_and]
    rw [show ((' ' == ' ') : Bool) = true from rfl, mark_line (rhs_line r.2), ih]

/-! ### Reading the rules -/

/-- The text of a line without its end. -/
theorem render_line {L : Chunks} (hL : Line L) (f : Str → Str) :
    ' ' :: render (L.map fun w => (f w.1, w.2)) =
      behind (L.map fun w => f w.1) ++ ['\n'] := by
  induction hL with
  | last w => simp [behind]
  | @cons w L h ih =>
    rw [List.map_cons, render_cons, ih, List.map_cons]
    simp [behind]

theorem splitLines_line (x y : Str) (hx : '\n' ∉ x) :
    splitLines (x ++ '\n' :: y) = x :: splitLines y := by
  induction x with
  | nil => simp [splitLines]
  | cons c cs ih =>
    have hc : c ≠ '\n' := fun h => hx (h ▸ List.mem_cons_self ..)
    rw [List.cons_append, splitLines, if_neg hc, ih fun h => hx (List.mem_cons_of_mem _ h)]

theorem altsOf_words {Q : List Str} (A : List Str) (hA : ['|'] ∉ A) :
    altsOf Q A = [(A.filter (· ≠ [])).map (symbolOf Q)] := by
  induction A with
  | nil => rfl
  | cons w ws ih =>
    have hw : w ≠ ['|'] := fun h => hA (h ▸ List.mem_cons_self ..)
    have ih' := ih fun h => hA (List.mem_cons_of_mem _ h)
    by_cases hne : w = []
    · subst hne
      simpa [altsOf] using ih'
    · simp [altsOf, hne, hw, ih', addFront]

theorem altsOf_bar {Q : List Str} (A B : List Str) (hA : ['|'] ∉ A) :
    altsOf Q (A ++ ['|'] :: B) = (A.filter (· ≠ [])).map (symbolOf Q) :: altsOf Q B := by
  induction A with
  | nil => simp [altsOf]
  | cons w ws ih =>
    have hw : w ≠ ['|'] := fun h => hA (h ▸ List.mem_cons_self ..)
    have ih' := ih fun h => hA (List.mem_cons_of_mem _ h)
    by_cases hne : w = []
    · subst hne
      simpa [altsOf] using ih'
    · simp [altsOf, hne, hw, ih', addFront]

/-- The words of a production. -/
theorem chunk_good {Q : List Str} (hQ : ∀ p ∈ Q, IsPrimitive p) {t : Str} (e : Char)
    (hs : WellSpaced t) (hn : ∀ n ∈ namesOf t, n ∈ Q ∨ IsName n) :
    ∀ w ∈ (chunk e (clean t)).map (·.1), w ≠ ['|'] ∧ GoodWord Q w := by
  intro w hw
  by_cases hne : w = []
  · exact ⟨by rw [hne]; simp, .inl hne⟩
  · have : w ∈ namesOf t := by
      rw [← chunk_names e hs]
      exact List.mem_filter.2 ⟨hw, by simpa using hne⟩
    rcases hn w this with h | h
    · exact ⟨fun hb => bar_not_primitive hQ (hb ▸ h), .inr (.inr (.inl h))⟩
    · refine ⟨?_, .inr (.inr (.inr h))⟩
      rintro rfl
      have := h.chars '|' (by simp)
      revert this; decide

theorem rhs_good {Q : List Str} (hQ : ∀ p ∈ Q, IsPrimitive p) (ps : List Str)
    (hs : ∀ t ∈ ps, WellSpaced t) (hn : ∀ t ∈ ps, ∀ n ∈ namesOf t, n ∈ Q ∨ IsName n) :
    ∀ w ∈ (rhsChunks ps).map (·.1), GoodWord Q w := by
  induction ps with
  | nil => intro w hw; simp [rhsChunks, chunk] at hw; exact .inl hw
  | cons p ps ih =>
    have hp := fun e => chunk_good hQ e (hs p (List.mem_cons_self ..)) (hn p (List.mem_cons_self ..))
    cases ps with
    | nil => exact fun w hw => (hp _ w hw).2
    | cons q qs =>
      intro w hw
      rw [rhsChunks, List.map_append, List.map_cons] at hw
      rcases List.mem_append.1 hw with h | h
      · exact (hp _ w h).2
      · rcases List.mem_cons.1 h with rfl | h
        · exact .inr (.inl rfl)
        · exact ih (fun t ht => hs t (List.mem_cons_of_mem _ ht))
            (fun t ht => hn t (List.mem_cons_of_mem _ ht)) w h

theorem rhs_alts {Q : List Str} (hQ : ∀ p ∈ Q, IsPrimitive p) (ps : List Str) (hne : ps ≠ [])
    (hs : ∀ t ∈ ps, WellSpaced t) (hn : ∀ t ∈ ps, ∀ n ∈ namesOf t, n ∈ Q ∨ IsName n) :
    altsOf Q ((rhsChunks ps).map (·.1)) = ps.map fun t => (namesOf t).map (symbolOf Q) := by
  induction ps with
  | nil => exact absurd rfl hne
  | cons p ps ih =>
    have hsp := hs p (List.mem_cons_self ..)
    have hb : ∀ e, ['|'] ∉ (chunk e (clean p)).map (·.1) := fun e h =>
      (chunk_good hQ e hsp (hn p (List.mem_cons_self ..)) _ h).1 rfl
    cases ps with
    | nil =>
      have hf : ((chunk '\n' (clean p)).map (·.1)).filter (· ≠ []) = namesOf p := chunk_names _ hsp
      rw [rhsChunks, altsOf_words _ (hb _), hf]
      rfl
    | cons q qs =>
      have hf : ((chunk ' ' (clean p)).map (·.1)).filter (· ≠ []) = namesOf p := chunk_names _ hsp
      rw [rhsChunks, List.map_append, List.map_cons, altsOf_bar _ _ (hb _), hf,
        ih (by simp) (fun t ht => hs t (List.mem_cons_of_mem _ ht))
          (fun t ht => hn t (List.mem_cons_of_mem _ ht))]
      rfl

/-- Reading one line. -/
theorem readRule_line {Q : List Str} (hQ : ∀ p ∈ Q, IsPrimitive p) {lhs : Str} (hl : IsName lhs)
    (ws : List Str) (hws : ∀ w ∈ ws, GoodWord Q w) :
    ∃ c cs, pyStrip (lhs ++ " ->".toList ++ behind (ws.map (marked Q))) = c :: cs ∧
      isNameStart c = true ∧ (c :: cs).getLast? ≠ some '\\' ∧
      readRule (c :: cs) = some ((altsOf Q ws).map (⟨lhs, ·⟩)) := by
  have hname := hl
  obtain ⟨c, cs, rfl, h1, h2⟩ := hl
  have hb : isBlank c = false := nameStart_notBlank (isNameChar_of_start h1)
  have hstrip : pyStrip (c :: cs ++ " ->".toList ++ behind (ws.map (marked Q))) =
      c :: (cs ++ " ->".toList ++ (behind (ws.map (marked Q))).rdropWhile isBlank) := by
    unfold pyStrip
    have : (c :: cs ++ " ->".toList ++ behind (ws.map (marked Q))).dropWhile isBlank =
        c :: cs ++ " ->".toList ++ behind (ws.map (marked Q)) := by
      simp [hb]
    rw [this, rdropWhile_append']
    split
    · rename_i h
      rw [rdropWhile_all h]
      have e : c :: cs ++ " ->".toList = (c :: cs ++ [' ', '-']) ++ ['>'] := by simp
      rw [e, List.rdropWhile_concat_neg _ _ _ (by decide)]
      simp
    · simp
  refine ⟨c, _, hstrip, h1, ?_, ?_⟩
  · rcases behind_stops (ws.map (marked Q)) with hY | ⟨Z, hY⟩
    · rw [hY]
      have e : c :: (cs ++ " ->".toList ++ []) = (c :: cs ++ [' ', '-']) ++ ['>'] := by simp
      rw [e, List.getLast?_append]
      simp
    · -- the last word that is not empty ends the line
      have hlast : ∀ (us : List Str), (∀ w ∈ us, GoodWord Q w) →
          ((behind (us.map (marked Q))).rdropWhile isBlank).getLast? ≠ some '\\' := by
        intro us
        induction us with
        | nil => intro _; simp [behind]
        | cons w us ih =>
          intro hus
          have ih' := ih fun v hv => hus v (List.mem_cons_of_mem _ hv)
          have hw := hus w (List.mem_cons_self ..)
          by_cases hne : w = []
          · subst hne
            have e : marked Q [] = [] := by simp [marked, nil_not_primitive hQ]
            rw [List.map_cons, e]
            have e1 : behind ([] :: us.map (marked Q)) = [' '] ++ behind (us.map (marked Q)) := by
              simp [behind]
            rw [e1, rdropWhile_append']
            split
            · rw [rdropWhile_all (by decide)]; simp
            · rw [List.getLast?_append]
              cases hx : ((behind (us.map (marked Q))).rdropWhile isBlank).getLast? with
              | none => simp
              | some x => rw [hx] at ih'; simpa using ih'
          · rw [List.map_cons, behind_cons hw hne]
            have e : ' ' :: (marked Q w ++ (behind (us.map (marked Q))).rdropWhile isBlank) =
                (' ' :: marked Q w) ++ (behind (us.map (marked Q))).rdropWhile isBlank := by simp
            rw [e, List.getLast?_append]
            cases hx : ((behind (us.map (marked Q))).rdropWhile isBlank).getLast? with
            | some x => rw [hx] at ih'; simpa using ih'
            | none =>
              have hm : (marked Q w).getLast? ≠ some '\\' := by
                by_cases hq : w ∈ Q
                · simp [marked, hq, quote, List.getLast?_cons]
                · have em : marked Q w = w := by simp [marked, hq]
                  rw [em]
                  rcases hw with h | h | h | h
                  · exact absurd h hne
                  · rw [h]; decide
                  · exact absurd h hq
                  · intro hc
                    have := h.chars '\\' (List.mem_of_getLast? hc)
                    revert this; decide
              obtain ⟨a, v, ea, _⟩ := hw.first hne
              rw [ea] at hm ⊢
              simpa using hm
      have := hlast ws hws
      rw [hY] at this ⊢
      have e : c :: (cs ++ " ->".toList ++ ' ' :: Z) = (c :: cs ++ " ->".toList) ++ ' ' :: Z := by
        simp
      rw [e, List.getLast?_append]
      cases hx : (' ' :: Z).getLast? with
      | none => simp at hx
      | some x => rw [hx] at this; simpa using this
  · have hr := readName_word (Y := " ->".toList ++ (behind (ws.map (marked Q))).rdropWhile isBlank)
      hname (.inr ⟨'-' :: '>' :: (behind (ws.map (marked Q))).rdropWhile isBlank, rfl⟩)
    have e : c :: (cs ++ " ->".toList ++ (behind (ws.map (marked Q))).rdropWhile isBlank) =
        c :: cs ++ (" ->".toList ++ (behind (ws.map (marked Q))).rdropWhile isBlank) := by simp
    rw [readRule, e, hr]
    have ed : (" ->".toList ++ (behind (ws.map (marked Q))).rdropWhile isBlank).dropWhile isBlank =
        '-' :: '>' :: (behind (ws.map (marked Q))).rdropWhile isBlank := by
      simp [show isBlank ' ' = true by decide, show isBlank '-' = false by decide]
    rw [ed]
    have ea : readArrow ('-' :: '>' :: (behind (ws.map (marked Q))).rdropWhile isBlank) =
        some (((behind (ws.map (marked Q))).rdropWhile isBlank).dropWhile isBlank) := by
      simp [readArrow, show isBlank '-' = false by decide]
    simp only [Option.bind_some, ea]
    rw [readSides_behind hQ ws hws _ le_rfl]
    rfl

theorem behind_newline (ws : List Str) (h : ∀ w ∈ ws, '\n' ∉ w) : '\n' ∉ behind ws := by
  intro hm
  obtain ⟨w, hw, hc⟩ := List.mem_flatMap.1 hm
  rcases List.mem_cons.1 hc with hc | hc
  · exact absurd hc (by decide)
  · exact h w hw hc

theorem goodWord_newline {Q : List Str} (hQ : ∀ p ∈ Q, IsPrimitive p) {w : Str}
    (hw : GoodWord Q w) : '\n' ∉ marked Q w := by
  by_cases hq : w ∈ Q
  · have := (hQ w hq).2.2.2.2.1
    simp [marked, hq, quote, this]
  · have e : marked Q w = w := by simp [marked, hq]
    rw [e]
    rcases hw with h | h | h | h
    · simp [h]
    · rw [h]; decide
    · exact absurd h hq
    · intro hc
      have := h.chars '\n' hc
      revert this; decide

/-- Reading all lines. -/
theorem readRules_all {Q : List Str} (hQ : ∀ p ∈ Q, IsPrimitive p)
    (rules : List (Str × List Str)) (hk : ∀ r ∈ rules, IsName r.1)
    (hp : ∀ r ∈ rules, r.2 ≠ []) (hs : ∀ r ∈ rules, ∀ t ∈ r.2, WellSpaced t)
    (hn : ∀ r ∈ rules, ∀ t ∈ r.2, ∀ n ∈ namesOf t, n ∈ Q ∨ IsName n) :
    readRules (splitLines (render (rules.flatMap fun r => (r.1, ' ') :: (['-', '>'], ' ') ::
        (rhsChunks r.2).map fun w => (marked Q w.1, w.2)))) = some (described rules Q) := by
  induction rules with
  | nil => rfl
  | cons r rs ih =>
    have ih' := ih (fun x hx => hk x (List.mem_cons_of_mem _ hx))
      (fun x hx => hp x (List.mem_cons_of_mem _ hx)) (fun x hx => hs x (List.mem_cons_of_mem _ hx))
      (fun x hx => hn x (List.mem_cons_of_mem _ hx))
    have hkr := hk r (List.mem_cons_self ..)
    have hgood := rhs_good hQ r.2 (hs r (List.mem_cons_self ..)) (hn r (List.mem_cons_self ..))
    have halts := rhs_alts hQ r.2 (hp r (List.mem_cons_self ..)) (hs r (List.mem_cons_self ..))
      (hn r (List.mem_cons_self ..))
    rw [List.flatMap_cons, render_append, render_cons, render_cons]
    have hline : r.1 ++ ' ' :: (['-', '>'] ++ ' ' :: render ((rhsChunks r.2).map
        fun w => (marked Q w.1, w.2))) =
        (r.1 ++ " ->".toList ++ behind (((rhsChunks r.2).map (·.1)).map (marked Q))) ++ ['\n'] := by
      rw [render_line (rhs_line r.2) (marked Q), List.map_map]
      simp [Function.comp_def]
    rw [hline, List.append_assoc, List.singleton_append, splitLines_line]
    · obtain ⟨c, cs, e1, e2, e3, e4⟩ := readRule_line hQ hkr _ hgood
      have n1 : c ≠ '#' := by rintro rfl; revert e2; decide
      have n2 : c ≠ '%' := by rintro rfl; revert e2; decide
      simp only [readRules, e1, n1, n2, e3, if_false, or_self, e4, ih', halts]
      simp [described, List.map_map, Function.comp_def]
    · intro hc
      rcases List.mem_append.1 hc with h | h
      · rcases List.mem_append.1 h with h | h
        · have := hkr.chars '\n' h
          revert this; decide
        · revert h; decide
      · refine behind_newline _ ?_ h
        intro w hw
        obtain ⟨v, hv, rfl⟩ := List.mem_map.1 hw
        exact goodWord_newline hQ (hgood v hv)

/-- The checks of `Grammar.__init__` always pass. -/
theorem init_some (g : Grammar) : g.init = some { g with prior := none } := by
  unfold Grammar.init
  rw [if_neg, if_neg]
  · intro h
    obtain ⟨A, hA, hlen⟩ := List.any_eq_true.1 h
    have : A ∈ g.lhss := by simpa [Grammar.nonterminals] using hA
    obtain ⟨p, hp, rfl⟩ := List.mem_map.1 this
    have : p ∈ g.productions p.lhs := by simp [Grammar.productions, hp]
    rw [beq_iff_eq, List.length_eq_zero_iff] at hlen
    rw [hlen] at this
    cases this
  · rw [Nat.not_lt, Nat.le_zero, List.length_eq_zero_iff, List.filter_eq_nil_iff]
    intro a ha
    simpa [Grammar.terminals] using (List.mem_filter.1 ha).2

/-- **C116, the described grammar.**  A well written structure gives exactly the grammar it
describes: the first key is the start symbol, and every key has the productions that are written
for it, in order, with the names of the primitives as terminals.  (`fuel` only says how long the
loops of the code may run: they end.)

Partial: the structure has to be well written, see `C116_comma_fails`; and a name that is neither a
key nor a primitive is not reported, see `C116_undeclared_fails`. -/
theorem C116_structure_partial (rules : List (Str × List Str)) (primitives : List Str)
    (h : WellWritten rules primitives) :
    ∃ N, ∀ fuel, N ≤ fuel → ∃ first rest, rules = first :: rest ∧
      architectureGrammar fuel primitives (.dict rules) =
        some ⟨first.1, described rules primitives, none⟩ := by
  refine ⟨(rules.flatMap ruleChunks).length + 1, fun fuel hf => ?_⟩
  obtain ⟨first, rest, rfl⟩ := List.exists_cons_of_ne_nil h.rule
  refine ⟨first, rest, rfl, ?_⟩
  have hprop := rules_proper h
  have hQ := h.primitive
  have ht : structureText fuel (first :: rest) primitives =
      some (render (mark primitives false ((first :: rest).flatMap ruleChunks))) := by
    unfold structureText
    have e : dropBrackets (rulesText (first :: rest)) =
        render (mark [] false ((first :: rest).flatMap ruleChunks)) := by
      rw [mark_nil, render_rules _ h.key]
    rw [e, quoteNames hprop (by omega) primitives []
      fun p hp => ⟨fun c hc => by
        rintro (rfl | rfl)
        · exact (hQ p hp).2.2.2.1 hc
        · exact (hQ p hp).2.2.2.2.1 hc, (hQ p hp).2.2.2.2.2⟩]
    simp
  have hread := readRules_all hQ (first :: rest) h.key h.production
    (fun r hr t ht => (h.spaced r hr t ht).1) h.name
  rw [architectureGrammar, ht, Option.bind_some, fromString, mark_rules hQ, hread]
  obtain ⟨t, ts, e⟩ := List.exists_cons_of_ne_nil
    (h.production first (List.mem_cons_self ..))
  have ed : described (first :: rest) primitives =
      ⟨first.1, (namesOf t).map (symbolOf primitives)⟩ ::
        (described [(first.1, ts)] primitives ++ described rest primitives) := by
    simp [described, e]
  rw [ed]
  simp only [init_some]

/-- The structure of the documentation, shortened. -/
def dictDemo : List (Str × List Str) :=
  [("S".toList, ["Seq(C, down, C)".toList]),
   ("C".toList, ["Cell(OPS, OPS)".toList, "OPS".toList]),
   ("OPS".toList, ["id".toList, "conv3x3".toList])]

/-- The primitives of `dictDemo`. -/
def dictPrims : List Str :=
  ["Seq".toList, "Cell".toList, "down".toList, "id".toList, "conv3x3".toList]

theorem isName_of_check {s : Str}
    (h : (match s with | [] => false | c :: cs => isNameStart c && cs.all isNameChar) = true) :
    IsName s := by
  cases s with
  | nil => cases h
  | cons c cs =>
    simp only [Bool.and_eq_true, List.all_eq_true] at h
    exact ⟨c, cs, rfl, h.1, h.2⟩

theorem wellSpaced_of_check {t : Str}
    (h : (t.zip t.tail).all (fun p => !(p.1 == ',' || p.1 == ')') || isPunct p.2) = true) :
    WellSpaced t := by
  rintro a x y b rfl hx
  have hm : (x, y) ∈ (a ++ x :: y :: b).zip (a ++ x :: y :: b).tail := by
    clear h
    induction a with
    | nil => simp
    | cons c cs ih =>
      cases cs with
      | nil => simp
      | cons d ds =>
        simp only [List.cons_append, List.tail_cons, List.zip_cons_cons] at ih ⊢
        exact List.mem_cons_of_mem _ ih
  have := List.all_eq_true.1 h _ hm
  rcases hx with rfl | rfl <;> simpa using this

/-- The hypotheses of `C116_structure_partial` are met by the structure of the documentation. -/
theorem dictDemo_wellWritten : WellWritten dictDemo dictPrims where
  rule := by decide
  key := by
    intro r hr
    refine isName_of_check ?_
    revert r
    decide +kernel
  production := by decide +kernel
  spaced := by
    intro r hr t ht
    have : ∀ r ∈ dictDemo, ∀ t ∈ r.2,
        (t.zip t.tail).all (fun p => !(p.1 == ',' || p.1 == ')') || isPunct p.2) = true ∧
          '\n' ∉ t := by
      decide +kernel
    exact ⟨wellSpaced_of_check (this r hr t ht).1, (this r hr t ht).2⟩
  name := by
    intro r hr t ht n hn
    have : ∀ r ∈ dictDemo, ∀ t ∈ r.2, ∀ n ∈ namesOf t, n ∈ dictPrims ∨
        (match n with | [] => false | c :: cs => isNameStart c && cs.all isNameChar) = true := by
      decide +kernel
    exact (this r hr t ht n hn).imp_right isName_of_check
  primitive := by
    have : ∀ p ∈ dictPrims, p ≠ [] ∧ p ≠ "|".toList ∧ p ≠ "->".toList ∧ ' ' ∉ p ∧ '\n' ∉ p ∧
        '"' ∉ p := by decide +kernel
    exact this

example : architectureGrammar 50 dictPrims (.dict dictDemo) = some ⟨"S".toList,
    [⟨"S".toList, [.t "Seq".toList, .nt "C".toList, .t "down".toList, .nt "C".toList]⟩,
     ⟨"C".toList, [.t "Cell".toList, .nt "OPS".toList, .nt "OPS".toList]⟩,
     ⟨"C".toList, [.nt "OPS".toList]⟩,
     ⟨"OPS".toList, [.t "id".toList]⟩,
     ⟨"OPS".toList, [.t "conv3x3".toList]⟩], none⟩ := by
  obtain ⟨p, h⟩ : ∃ p, architectureGrammar 50 dictPrims (.dict dictDemo) = p := ⟨_, rfl⟩
  have h1 : (architectureGrammar 50 dictPrims (.dict dictDemo)).map (fun g => (g.start, g.prods)) =
      some ("S".toList,
    [⟨"S".toList, [.t "Seq".toList, .nt "C".toList, .t "down".toList, .nt "C".toList]⟩,
     ⟨"C".toList, [.t "Cell".toList, .nt "OPS".toList, .nt "OPS".toList]⟩,
     ⟨"C".toList, [.nt "OPS".toList]⟩,
     ⟨"OPS".toList, [.t "id".toList]⟩,
     ⟨"OPS".toList, [.t "conv3x3".toList]⟩]) := by decide +kernel
  have h2 : (architectureGrammar 50 dictPrims (.dict dictDemo)).all (·.prior.isNone) = true := by
    decide +kernel
  rw [h] at h1 h2 ⊢
  cases p with
  | none => simp at h1
  | some g =>
    obtain ⟨a, b, c⟩ := g
    simp only [Option.map_some, Option.some.injEq, Prod.mk.injEq] at h1
    simp only [Option.all_some, Option.isNone_iff_eq_none] at h2
    rw [h1.1, h1.2, h2]

/-- **C116, a comma without a blank.**  In `"Seq(a,b)"` the two arguments become one symbol: the
names of the production are `Seq`, `a` and `b`, all of them primitives, but the grammar has the
production `Seq ab` with a nonterminal `ab`. -/
theorem C116_comma_fails :
    namesOf "Seq(a,b)".toList = ["Seq".toList, "a".toList, "b".toList] ∧
      ((architectureGrammar 9 ["Seq".toList, "a".toList, "b".toList]
        (.dict [("S".toList, ["Seq(a,b)".toList])])).map (·.prods)) =
        some [⟨"S".toList, [.t "Seq".toList, .nt "ab".toList]⟩] := by
  decide +kernel

/-- **C116, an undeclared name.**  A name that is neither a key of the structure nor a primitive is
accepted, as a nonterminal without productions; sampling then raises whatever is drawn. -/
theorem C116_undeclared_fails :
    ∃ g, architectureGrammar 9 ["Seq".toList] (.dict [("S".toList, ["Seq(typo, typo)".toList])]) =
        some g ∧ ⟨"S".toList, [.t "Seq".toList, .nt "typo".toList, .nt "typo".toList]⟩ ∈ g.prods ∧
      g.productions "typo".toList = [] := by
  have h : ((architectureGrammar 9 ["Seq".toList]
      (.dict [("S".toList, ["Seq(typo, typo)".toList])])).map fun g =>
        (decide (⟨"S".toList, [.t "Seq".toList, .nt "typo".toList, .nt "typo".toList]⟩ ∈ g.prods),
          g.productions "typo".toList)) = some (true, []) := by decide +kernel
  obtain ⟨g, hg, h⟩ := Option.map_eq_some_iff.1 h
  rw [Prod.mk.injEq, decide_eq_true_iff] at h
  exact ⟨g, hg, h.1, h.2⟩

end Verif.Gram
