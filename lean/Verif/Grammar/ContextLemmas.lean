import Verif.Grammar.ContextModel
import Verif.Grammar.Locate
import Verif.Grammar.SampleLemmas

/-!
# Lemmas on the context of a subtree
-/

namespace Verif.Gram

/-- Closing brackets. -/
abbrev closing (n : ℕ) : Str := List.replicate n ')'

/-- A text that is empty or begins with a space. -/
def Apart (v : Str) : Prop := v = [] ∨ ∃ r, v = ' ' :: r

theorem apart_text (f : Forest) {v : Str} (hv : Apart v) : Apart (f.text ++ v) := by
  by_cases h : f = .nil
  · subst h; simpa [Forest.text] using hv
  · obtain ⟨r, hr⟩ := text_cons f h
    exact Or.inr ⟨r ++ v, by rw [hr]; rfl⟩

theorem splitSp_apart {v : Str} (hv : Apart v) : splitSp v = [] :: (splitSp v).tail := by
  rcases hv with rfl | ⟨r, rfl⟩
  · rfl
  · rw [splitSp_space]; rfl

theorem splitSp_word {w v : Str} (hw : ' ' ∉ w) (hv : Apart v) :
    splitSp (w ++ v) = w :: (splitSp v).tail := by
  rcases hv with rfl | ⟨r, rfl⟩
  · rw [List.append_nil, splitSp_free w hw]; rfl
  · rw [splitSp_append_space, splitSp_free w hw, splitSp_space]; rfl

/-- The names in a forest: leaves are terminals, nodes are nonterminals with children. -/
def Forest.Solid (N : List Str) : Forest → Prop
  | .nil => True
  | .leaf s rest => (' ' ∉ s ∧ '(' ∉ s ∧ ')' ∉ s) ∧ s ≠ [] ∧ s ∉ N ∧ rest.Solid N
  | .node A kids rest => (' ' ∉ A ∧ '(' ∉ A ∧ ')' ∉ A) ∧ A ≠ [] ∧
      (A ∈ N ∧ A ∉ [[' '], ['\t'], ['\n'], ['['], [']']]) ∧ kids ≠ .nil ∧ kids.Solid N ∧
      rest.Solid N

/-- The tokens of the text of a forest, with `n` closing brackets behind it. -/
def Forest.toks : Forest → ℕ → List Str
  | .nil, _ => []
  | .leaf s .nil, n => [s ++ closing n]
  | .leaf s (.leaf s' r), n => s :: toks (.leaf s' r) n
  | .leaf s (.node A k r), n => s :: toks (.node A k r) n
  | .node A k .nil, n => ('(' :: A) :: toks k (n + 1)
  | .node A k (.leaf s r), n => ('(' :: A) :: (toks k 1 ++ toks (.leaf s r) n)
  | .node A k (.node B k' r), n => ('(' :: A) :: (toks k 1 ++ toks (.node B k' r) n)

theorem toks_leaf (s : Str) {r : Forest} (hr : r ≠ .nil) (n : ℕ) :
    (Forest.leaf s r).toks n = s :: r.toks n := by
  cases r with
  | nil => exact absurd rfl hr
  | leaf => rw [Forest.toks]
  | node => rw [Forest.toks]

theorem toks_node (A : Str) (k : Forest) {r : Forest} (hr : r ≠ .nil) (n : ℕ) :
    (Forest.node A k r).toks n = ('(' :: A) :: (k.toks 1 ++ r.toks n) := by
  cases r with
  | nil => exact absurd rfl hr
  | leaf => rw [Forest.toks]
  | node => rw [Forest.toks]

theorem closing_free (n : ℕ) : ' ' ∉ closing n := by
  intro h
  have := List.eq_of_mem_replicate h
  exact absurd this (by decide)

theorem splitSp_toks {N : List Str} (f : Forest) : f ≠ .nil → f.Solid N → ∀ (n : ℕ) (v : Str),
    Apart v → splitSp (f.text ++ closing n ++ v) = [] :: (f.toks n ++ (splitSp v).tail) := by
  induction f with
  | nil => intro h; exact absurd rfl h
  | leaf s r ih =>
    intro _ hs n v hv
    by_cases hr : r = .nil
    · subst hr
      have e : (Forest.leaf s .nil).text ++ closing n ++ v = ' ' :: ((s ++ closing n) ++ v) := by
        simp [Forest.text]
      rw [e, splitSp_space, splitSp_word (by simp [hs.1.1]) hv]
      simp [Forest.toks]
    · have h1 := ih hr hs.2.2.2 n v hv
      have e : (Forest.leaf s r).text ++ closing n ++ v = ' ' :: (s ++ (r.text ++ closing n ++ v)) := by
        simp [Forest.text]
      have ha : Apart (r.text ++ closing n ++ v) := by
        obtain ⟨x, hx⟩ := text_cons r hr
        exact Or.inr ⟨x ++ closing n ++ v, by rw [hx]; rfl⟩
      rw [e, splitSp_space, splitSp_word hs.1.1 ha, h1, toks_leaf s hr]
      rfl
  | node A k r ihk ihr =>
    intro _ hs n v hv
    have hk := hs.2.2.2.1
    have hkt : ∀ x, Apart (k.text ++ x) := by
      intro x
      obtain ⟨y, hy⟩ := text_cons k hk
      exact Or.inr ⟨y ++ x, by rw [hy]; rfl⟩
    by_cases hr : r = .nil
    · subst hr
      have e : (Forest.node A k .nil).text ++ closing n ++ v =
          ' ' :: (('(' :: A) ++ (k.text ++ closing (n + 1) ++ v)) := by
        simp [Forest.text, closing, List.replicate_succ]
      have h1 := ihk hk hs.2.2.2.2.1 (n + 1) v hv
      have ha : Apart (k.text ++ closing (n + 1) ++ v) := by rw [List.append_assoc]; exact hkt _
      rw [e, splitSp_space, splitSp_word (by simp [hs.1.1]) ha, h1]
      simp [Forest.toks]
    · have h1 := ihr hr hs.2.2.2.2.2 n v hv
      have ha : Apart (r.text ++ closing n ++ v) := by
        obtain ⟨x, hx⟩ := text_cons r hr
        exact Or.inr ⟨x ++ closing n ++ v, by rw [hx]; rfl⟩
      have h2 := ihk hk hs.2.2.2.2.1 1 _ ha
      have e : (Forest.node A k r).text ++ closing n ++ v =
          ' ' :: (('(' :: A) ++ (k.text ++ closing 1 ++ (r.text ++ closing n ++ v))) := by
        simp [Forest.text, closing, List.replicate_succ]
      have ha' : Apart (k.text ++ closing 1 ++ (r.text ++ closing n ++ v)) := by
        rw [List.append_assoc]; exact hkt _
      rw [e, splitSp_space, splitSp_word (by simp [hs.1.1]) ha', h2, h1, toks_node A k hr]
      simp

/-! ### Open nonterminals -/

theorem dropClosing_closing {s : Str} (hs : ')' ∉ s) (hs0 : s ≠ []) (n : ℕ) :
    dropClosing (s ++ closing n) = some (s, n) := by
  have h1 : (s ++ closing n).reverse.dropWhile (· = ')') = s.reverse := by
    rw [List.reverse_append, List.reverse_replicate]
    induction n with
    | zero =>
      simp only [List.replicate_zero, List.nil_append]
      cases hr : s.reverse with
      | nil => rfl
      | cons c cs =>
        have : c ∈ s := by rw [← List.mem_reverse, hr]; simp
        rw [List.dropWhile_cons_of_neg]
        simp only [decide_eq_true_eq]
        rintro rfl
        exact hs this
    | succ n ih =>
      rw [List.replicate_succ, List.cons_append, List.dropWhile_cons_of_pos (by decide), ih]
  unfold dropClosing
  simp only [h1, List.reverse_reverse]
  rw [if_neg hs0]
  simp

theorem openStep_leaf {g : Grammar} {s : Str} (h1 : '(' ∉ s) (h2 : ')' ∉ s) (h3 : s ≠ [])
    (h4 : s ∉ g.nonterminals) {q : List Str} {n : ℕ} (hn : n ≤ q.length) :
    openStep g q (s ++ closing n) = some (q.drop n) := by
  unfold openStep
  rw [if_neg (by simp [h3])]
  have hh : (s ++ closing n).head? ≠ some '(' := by
    cases s with
    | nil => exact absurd rfl h3
    | cons c cs =>
      simp only [List.cons_append, List.head?_cons, ne_eq, Option.some.injEq]
      rintro rfl
      exact h1 (by simp)
  have hc : (s ++ closing n).count ')' = n := by
    rw [List.count_append, List.count_eq_zero.2 h2]; simp
  simp only [hh, if_false, hc]
  cases n with
  | zero =>
    simp only [closing, List.replicate_zero, List.append_nil, List.drop_zero]
    cases hl : s.getLast? with
    | none => simp at hl; exact absurd hl h3
    | some l =>
      have : l ∈ s := List.mem_of_getLast? hl
      have hl' : l ≠ ')' := by rintro rfl; exact h2 this
      simp only [hl', if_false, h4, false_and]
  | succ n =>
    have hl : (s ++ closing (n + 1)).getLast? = some ')' := by
      rw [closing, List.replicate_succ', ← List.append_assoc]; simp
    simp only [hl, if_true, hn, dropClosing_closing h2 h3, h4, false_and, if_false]

theorem openStep_node {g : Grammar} {A : Str} (h2 : ')' ∉ A) (h3 : A ≠ [])
    (h4 : A ∈ g.nonterminals ∧ A ∉ [[' '], ['\t'], ['\n'], ['['], [']']]) (q : List Str) :
    openStep g q ('(' :: A) = some (A :: q) := by
  unfold openStep
  rw [if_neg (by simp)]
  simp only [List.head?_cons, if_true, List.drop_succ_cons, List.drop_zero]
  cases hl : A.getLast? with
  | none => simp at hl; exact absurd hl h3
  | some l =>
    have : l ∈ A := List.mem_of_getLast? hl
    have hl' : l ≠ ')' := by rintro rfl; exact h2 this
    simp only [hl', if_false]
    rw [if_pos h4]

theorem openFold_toks {g : Grammar} (f : Forest) : f ≠ .nil → f.Solid g.nonterminals →
    ∀ (n : ℕ) (q : List Str), n ≤ q.length →
      (f.toks n).foldlM (openStep g) q = some (q.drop n) := by
  induction f with
  | nil => intro h; exact absurd rfl h
  | leaf s r ih =>
    intro _ hs n q hn
    by_cases hr : r = .nil
    · subst hr
      rw [Forest.toks, List.foldlM_cons, openStep_leaf hs.1.2.1 hs.1.2.2 hs.2.1 hs.2.2.1 hn]
      rfl
    · rw [toks_leaf s hr, List.foldlM_cons]
      have := openStep_leaf (n := 0) hs.1.2.1 hs.1.2.2 hs.2.1 hs.2.2.1 (q := q) (by omega)
      simp only [closing, List.replicate_zero, List.append_nil, List.drop_zero] at this
      rw [this]
      exact ih hr hs.2.2.2 n q hn
  | node A k r ihk ihr =>
    intro _ hs n q hn
    have ho := openStep_node (g := g) hs.1.2.2 hs.2.1 hs.2.2.1 q
    by_cases hr : r = .nil
    · subst hr
      rw [Forest.toks, List.foldlM_cons, ho]
      have := ihk hs.2.2.2.1 hs.2.2.2.2.1 (n + 1) (A :: q) (by simp; omega)
      simpa using this
    · rw [toks_node A k hr, List.foldlM_cons, ho]
      have h1 := ihk hs.2.2.2.1 hs.2.2.2.2.1 1 (A :: q) (by simp)
      have h2 := ihr hr hs.2.2.2.2.2 n q hn
      simp only [Option.bind_eq_bind, Option.bind_some]
      rw [List.foldlM_append, h1]
      simpa using h2

theorem openFold_apart {g : Grammar} {v : Str} (hv : Apart v) (q : List Str) :
    (splitSp v).foldlM (openStep g) q = (splitSp v).tail.foldlM (openStep g) q := by
  rw [splitSp_apart hv]
  rfl

theorem At.apart {A kids f u v F} (h : At A kids f u v F) {w : Str} (hw : Apart w) :
    Apart (u ++ w) := by
  cases h with
  | here => simpa using hw
  | leaf s h => exact Or.inr ⟨_, rfl⟩
  | down B r h => exact Or.inr ⟨_, rfl⟩
  | next B k h => exact Or.inr ⟨_, rfl⟩

/-- The text before a node leaves some nonterminals open. -/
theorem openFold_at {g : Grammar} {A kids f u v F} (h : At A kids f u v F) :
    f.Solid g.nonterminals → ∀ q, ∃ q', ∀ w, Apart w →
      (splitSp (u ++ w)).foldlM (openStep g) q = (splitSp w).foldlM (openStep g) q' := by
  induction h with
  | here rest => intro _ q; exact ⟨q, fun w _ => rfl⟩
  | leaf s h ih =>
    rename_i f u v F
    intro hs q
    obtain ⟨q', hq'⟩ := ih hs.2.2.2 q
    refine ⟨q', fun w hw => ?_⟩
    have ha := h.apart hw
    have e : ' ' :: s ++ u ++ w = ' ' :: (s ++ (u ++ w)) := by simp
    rw [e, splitSp_space, splitSp_word hs.1.1 ha]
    have h0 : openStep g q [] = some q := by simp [openStep]
    have h1 := openStep_leaf (n := 0) hs.1.2.1 hs.1.2.2 hs.2.1 hs.2.2.1 (q := q) (by omega)
    simp only [closing, List.replicate_zero, List.append_nil, List.drop_zero] at h1
    simp only [List.foldlM_cons, h0, h1, Option.bind_eq_bind, Option.bind_some]
    rw [← openFold_apart ha, hq' w hw]
  | down B rest h ih =>
    rename_i k u v F
    intro hs q
    obtain ⟨q', hq'⟩ := ih hs.2.2.2.2.1 (B :: q)
    refine ⟨q', fun w hw => ?_⟩
    have ha := h.apart hw
    have e : ' ' :: '(' :: B ++ u ++ w = ' ' :: (('(' :: B) ++ (u ++ w)) := by simp
    rw [e, splitSp_space, splitSp_word (by simp [hs.1.1]) ha]
    have h0 : openStep g q [] = some q := by simp [openStep]
    have h1 := openStep_node (g := g) hs.1.2.2 hs.2.1 hs.2.2.1 q
    simp only [List.foldlM_cons, h0, h1, Option.bind_eq_bind, Option.bind_some]
    rw [← openFold_apart ha, hq' w hw]
  | next B k h ih =>
    rename_i f u v F
    intro hs q
    obtain ⟨q', hq'⟩ := ih hs.2.2.2.2.2 q
    refine ⟨q', fun w hw => ?_⟩
    have ha := h.apart hw
    have e : ' ' :: '(' :: B ++ k.text ++ ')' :: u ++ w =
        ' ' :: (('(' :: B) ++ (k.text ++ closing 1 ++ (u ++ w))) := by
      simp [closing, List.replicate_succ]
    have ha' : Apart (k.text ++ closing 1 ++ (u ++ w)) := by
      obtain ⟨y, hy⟩ := text_cons k hs.2.2.2.1
      exact Or.inr ⟨y ++ closing 1 ++ (u ++ w), by rw [hy]; rfl⟩
    rw [e, splitSp_space, splitSp_word (by simp [hs.1.1]) ha',
      splitSp_toks k hs.2.2.2.1 hs.2.2.2.2.1 1 _ ha]
    have h0 : openStep g q [] = some q := by simp [openStep]
    have h1 := openStep_node (g := g) hs.1.2.2 hs.2.1 hs.2.2.1 q
    have h2 := openFold_toks (g := g) k hs.2.2.2.1 hs.2.2.2.2.1 1 (B :: q) (by simp)
    simp only [List.foldlM_cons, List.tail_cons, List.foldlM_append, h0, h1, h2,
      Option.bind_eq_bind, Option.bind_some, List.drop_succ_cons, List.drop_zero]
    rw [← openFold_apart ha, hq' w hw]

/-! ### The last occurrence of a name -/

theorem fromLast_none {w s : Str} (hw : w ≠ []) (h : ∀ a b, s ≠ a ++ w ++ b) :
    fromLast w s = none := by
  induction s with
  | nil => simp [fromLast, hw]
  | cons c cs ih =>
    have h1 := ih (fun a b e => h (c :: a) b (by rw [e]; rfl))
    rw [fromLast, h1]
    simp only
    rw [if_neg]
    intro hp
    obtain ⟨b, hb⟩ := List.isPrefixOf_iff_prefix.1 hp
    exact h [] b (by simpa using hb.symm)

theorem fromLast_append {w s : Str} (hw : w ≠ []) (hsp : ' ' ∉ w) (x : Str)
    (h : ∀ a b, s ≠ a ++ w ++ b) :
    fromLast w (x ++ (w ++ ' ' :: s)) = some (w ++ ' ' :: s) := by
  have hbase : fromLast w (w ++ ' ' :: s) = some (w ++ ' ' :: s) := by
    obtain ⟨c, cs, rfl⟩ := List.exists_cons_of_ne_nil hw
    have hno : fromLast (c :: cs) (cs ++ ' ' :: s) = none := by
      refine fromLast_none hw ?_
      intro a b e
      have hle : a.length + (cs.length + 1) ≤ cs.length ∨ cs.length < a.length ∨
          (a.length ≤ cs.length ∧ cs.length < a.length + (cs.length + 1)) := by omega
      rcases hle with h1 | h1 | ⟨h1, h2⟩
      · omega
      · have e' : (cs ++ [' ']) ++ s = a ++ (c :: cs ++ b) := by simpa using e
        rcases List.append_eq_append_iff.1 e' with ⟨r, h3, h4⟩ | ⟨r, h3, h4⟩
        · exact h r b (by rw [h4]; simp)
        · have := congrArg List.length h3
          simp at this
          have hr : r = [] := List.length_eq_zero_iff.1 (by omega)
          subst hr
          exact h [] b (by simpa using h4.symm)
      · have hsp' : (cs ++ ' ' :: s)[cs.length]? = some ' ' := by simp
        rw [e, List.append_assoc, List.getElem?_append_right h1,
          List.getElem?_append_left (by simp; omega)] at hsp'
        exact hsp (List.mem_of_getElem? hsp')
    rw [List.cons_append, fromLast, hno]
    simp only
    rw [if_pos]
    exact List.isPrefixOf_iff_prefix.2 ⟨' ' :: s, by simp⟩
  induction x with
  | nil => exact hbase
  | cons c cs ih => rw [List.cons_append, fromLast, ih]

end Verif.Gram
